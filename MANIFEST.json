{
 "claims": [
  {
   "property": "C01",
   "status": "partial",
   "theorems": [
    "QuantiT.C01_cyclic_group_partial",
    "QuantiT.C01_reachable_values_valid_partial",
    "QuantiT.C01_cyclic_group_fails"
   ],
   "note": "Proved for every N up to 32768; false of the code for every longer cycle the class accepts (uint16 overflow), proved as C01_cyclic_group_fails."
  },
  {
   "property": "C02",
   "status": "partial",
   "theorems": [
    "QuantiT.C02_signed_ctor_partial",
    "QuantiT.C02_signed_ctor_fails"
   ],
   "note": "Proved except for arguments -kN, k>=2, where the code stores N (proved)."
  },
  {
   "property": "C03",
   "status": "proved",
   "theorems": [
    "QuantiT.C03_integer_charge",
    "QuantiT.C03_product_order_irrelevant"
   ],
   "note": ""
  },
  {
   "property": "C04",
   "status": "proved",
   "theorems": [
    "QuantiT.C04_composite_componentwise",
    "QuantiT.C04_composite_group",
    "QuantiT.C04_composite_order",
    "QuantiT.C04_composite_type_mismatch"
   ],
   "note": "Component values are assumed admissible (cycle length at most 32768, see C01)."
  },
  {
   "property": "C05",
   "status": "proved",
   "theorems": [
    "QuantiT.C05_distance_zero_iff",
    "QuantiT.C05_simple_distance"
   ],
   "note": ""
  },
  {
   "property": "C06",
   "status": "partial",
   "theorems": [
    "QuantiT.C06_assignment_partial",
    "QuantiT.C06_assignment_fails"
   ],
   "note": "Copy assignment between different held types throws bad_cast, contrary to the documentation (proved)."
  },
  {
   "property": "C07",
   "status": "proved",
   "theorems": [
    "QuantiT.C07_permute_sections"
   ],
   "note": ""
  },
  {
   "property": "C08",
   "status": "partial",
   "theorems": [
    "QuantiT.FM.C08_sorted_history_partial",
    "QuantiT.FM.C08_insert_range",
    "QuantiT.FM.C08_content_ctor_fails",
    "QuantiT.FM.C08_empty_range_fails"
   ],
   "note": "Proved for all histories whose calls stay out of the defective regions (Op.Ok); construction from the content type and initializer-list assignment break it (proved)."
  },
  {
   "property": "C09",
   "status": "partial",
   "theorems": [
    "QuantiT.FM.C09_step_partial",
    "QuantiT.FM.C09_history_partial",
    "QuantiT.FM.C09_queries",
    "QuantiT.FM.C09_insert_result",
    "QuantiT.FM.C09_insert_or_assign_fails"
   ],
   "note": "Refinement to the abstract partial map for all histories in Op.Ok; insert_or_assign/try_emplace read past the end for keys above all stored keys (proved)."
  },
  {
   "property": "C10",
   "status": "partial",
   "theorems": [
    "QuantiT.FM.C10_erase_present_partial",
    "QuantiT.FM.C10_erase_absent_fails"
   ],
   "note": "Holds for present keys; for every absent key the next larger entry is erased or memory past the end is read (proved)."
  },
  {
   "property": "C100",
   "status": "partial",
   "theorems": [
    "QuantiT.PK.C100_sections_partial",
    "QuantiT.PK.C100_bad_dimension",
    "QuantiT.PK.C100_bad_section_fails",
    "QuantiT.PK.C100_debug_fails",
    "QuantiT.PK.C100_constructor",
    "QuantiT.PK.C100_constructor_arrays",
    "QuantiT.PK.C100_charges_fails",
    "QuantiT.PK.C100_max_size_partial",
    "QuantiT.PK.C100_max_size_fails",
    "QuantiT.PK.C100_size_guess",
    "QuantiT.PK.C100_refines"
   ],
   "note": "All queries are proved for indices in range. A section index past its dimension returns a section of a later dimension (C100_bad_section_fails), also in debug builds, whose check reads past an array for dimensions without sections (C100_debug_fails). The constructor does not count the charges (C100_charges_fails). A tensor without dimensions counts one block for every rule (C100_max_size_fails)."
  },
  {
   "property": "C101",
   "status": "partial",
   "theorems": [
    "QuantiT.PY.C101_operation_partial",
    "QuantiT.PY.C101_histories_partial",
    "QuantiT.PY.C101_erase_range_fails",
    "QuantiT.PY.C101_bad_position_fails",
    "QuantiT.PY.C101_pop_fails",
    "QuantiT.PY.C101_slice_center_fails"
   ],
   "note": "Every operation and history agrees with a list except: erase(first,last) throws for every range that is not empty (its check is reversed); erase(len) and pop(p) past the end are undefined; pop() returns nothing; a slice of an MPS has its center at zero. Chains below 2^31 sites."
  },
  {
   "property": "C102",
   "status": "partial",
   "theorems": [
    "QuantiT.PY.C102_set_block_partial",
    "QuantiT.PY.C102_set_block_fails",
    "QuantiT.PY.C102_inverse_in_place_fails",
    "QuantiT.PY.C102_tensordot_number"
   ],
   "note": "Assignment is proved for values of the rank of the tensor; a value of higher rank is stored if its leading sizes fit, one of lower rank is undefined (C102_set_block_fails). inverse_cvals_ leaves the tensor as it is (C102_inverse_in_place_fails). tensordot with a number is proved entry by entry."
  },
  {
   "property": "C103",
   "status": "partial",
   "theorems": [
    "QuantiT.BN.C103_stays_partial",
    "QuantiT.BN.C103_cold_partial"
   ],
   "note": "Runs that return, with any Hamiltonian made of conserving tensors of total charge zero and ends of charge zero. Partial: every local update must leave the blocks of its truncated factors in order (Orderly; so it does if the truncation keeps a value of the section of the last block of either factor, LastKept.countable, while C40_factors_fails has a truncation that does not) and meet fewer than 2^63 sections. Two-site tensors that share no block with their product make the code undefined, so such runs do not return here (C81_disjoint_fails). As code: real tensors of torch's default type (C110)."
  },
  {
   "property": "C104",
   "status": "partial",
   "theorems": [
    "QuantiT.BN.C104_coalesce_partial",
    "QuantiT.BN.C104_empty_fails"
   ],
   "note": "Exact arithmetic, the default cutoff 0. Chains without empty dimensions or sections in which every charge of a bond is reached from the left end by an entry that is not zero; the Hamiltonians of C84 meet this (Props/HamilCut). Missing: chains with charges out of reach, cutoffs above zero (the chain is then not in canonical form when values are discarded, so that the values lost do not bound the error). A chain without tensors is undefined behaviour (C104_empty_fails). As code: real tensors of torch's default type (C110)."
  },
  {
   "property": "C105",
   "status": "proved",
   "theorems": [
    "QuantiT.DM.C105_simple",
    "QuantiT.DM.C105_sweeptime"
   ],
   "note": "For every run of C52 that returns, with a move_oc that keeps the number of tensors. Limits of fewer than 2^32 iterations; the number given at the end is that of C52, which is one more than the last iteration when the limit is reached (C52_step_fails)."
  },
  {
   "property": "C106",
   "status": "partial",
   "theorems": [
    "QuantiT.C106_in_place_partial",
    "QuantiT.C106_out_partial",
    "QuantiT.C106_count_partial",
    "QuantiT.C106_count_reject",
    "QuantiT.C106_lost",
    "QuantiT.C106_in_place_fails",
    "QuantiT.C106_out_sizes_fails"
   ],
   "note": "Proved for every implementation of torch's documented contract of reshape (a view when possible, otherwise a copy) and for outputs whose rows and columns are evenly spaced in memory (all row-major outputs: rowMajor_evenly; all matrices: matrix_evenly). Any other output is left as it was without an error: C106_lost, C106_in_place_fails. tensorgdot_out accepts an output of other sizes with as many elements (C106_out_sizes_fails). Inputs share no memory with the output; products of sizes below 2^31 in the version with a number of dimensions."
  },
  {
   "property": "C107",
   "status": "partial",
   "theorems": [
    "QuantiT.C107_pauli_partial",
    "QuantiT.C107_fermions",
    "QuantiT.C107_blocks_reject",
    "QuantiT.C107_order_fails"
   ],
   "note": "The physical space on one side and its conjugate on the other, exact arithmetic. fermions is complete: it succeeds exactly when the charges of the empty and the doubly occupied state add up to those of the two singly occupied ones. For pauli everything holds but the documented order: the header announces (lowering, Sz, identity), the code returns (Sz, lowering, identity): C107_order_fails."
  },
  {
   "property": "C108",
   "status": "partial",
   "theorems": [
    "QuantiT.BT.C108_add_partial",
    "QuantiT.BT.C108_index_put_partial",
    "QuantiT.BT.C108_index_put_bad_partial",
    "QuantiT.BT.C108_broadcast_partial",
    "QuantiT.BT.C108_pow_partial",
    "QuantiT.BT.C108_add_fails",
    "QuantiT.BT.C108_index_put_fails",
    "QuantiT.BT.C108_mul_fails",
    "QuantiT.BT.C108_pow_fails"
   ],
   "note": "Holds for add_ and basic_index_put_ of tensors whose dimensions have the same numbers of sections, for mul_ and div_ when the section sizes fit or the numbers of sections do not, and for pow_ when a is not repeated. It fails where the checks before the change accept what a block then refuses: sections divided otherwise among the dimensions for add_ (a block outside the grid stays in the tensor) and basic_index_put_ (the slice is half written), equal numbers of sections of different sizes for mul_ (the first blocks are multiplied), tensors repeated along larger sections for pow_. Exceptions from allocation are not modelled."
  },
  {
   "property": "C109",
   "status": "partial",
   "theorems": [
    "QuantiT.BT.C109_shift_partial",
    "QuantiT.BT.C109_copy",
    "QuantiT.BT.C109_own_exact",
    "QuantiT.BT.C109_own_fails"
   ],
   "note": "Holds out of place, and in place for charges outside the shifted dimension, the selection rule included. A section of the shifted dimension is read again after it has moved: C109_own_exact gives the result, C109_own_fails shows that it is not the shift for any charge but the neutral one."
  },
  {
   "property": "C11",
   "status": "partial",
   "theorems": [
    "QuantiT.FM.C11_merge_exact_partial",
    "QuantiT.FM.C11_merge_partial",
    "QuantiT.FM.C11_merge_id_partial",
    "QuantiT.FM.C11_merge_fails",
    "QuantiT.FM.C11_merge_rvalue_fails",
    "QuantiT.FM.C11_merge_rvalue_partial"
   ],
   "note": "Exact result of the in-place merge for all maps and functors; own keys below all incoming keys wrongly get nocollision (proved), and the rvalue overload with spare capacity transforms the wrong side (proved)."
  },
  {
   "property": "C110",
   "status": "partial",
   "theorems": [
    "QuantiT.TY.C110_svd_exact",
    "QuantiT.TY.C110_svd_partial",
    "QuantiT.TY.C110_svd_fails",
    "QuantiT.TY.C110_cut_partial",
    "QuantiT.TY.C110_cut_fails",
    "QuantiT.TY.C110_eigh_exact",
    "QuantiT.TY.C110_eigh_partial",
    "QuantiT.TY.C110_eigh_fails",
    "QuantiT.TY.C110_contract_fails"
   ],
   "note": "Holds for tensors with real entries (and, for truncation, a real declared type), in exact arithmetic. The matrices that are factorised are made in torch's default type, which is real: the product of the factors is the real part of the tensor (C110_svd_exact, C110_eigh_exact), which is not the tensor for any complex one; truncation throws invalid_argument for every tensor that declares a complex type (C110_cut_fails); the factors are stored in the default type, and contracting them with a tensor of another type throws (C110_contract_fails). Rounding of double numbers to a default of single precision is not modelled."
  },
  {
   "property": "C111",
   "status": "partial",
   "theorems": [
    "QuantiT.TY.C111_dense",
    "QuantiT.TY.C111_history_partial",
    "QuantiT.TY.C111_from_dense_partial",
    "QuantiT.TY.C111_stored",
    "QuantiT.TY.C111_mul",
    "QuantiT.TY.C111_mul_type_partial",
    "QuantiT.TY.C111_div_partial",
    "QuantiT.TY.C111_div_type_partial",
    "QuantiT.TY.C111_add_partial",
    "QuantiT.TY.C111_tensordot_partial",
    "QuantiT.TY.C111_from_dense_fails",
    "QuantiT.TY.C111_mul_type_fails",
    "QuantiT.TY.C111_div_fails",
    "QuantiT.TY.C111_add_fails",
    "QuantiT.TY.C111_add_throws_fails",
    "QuantiT.TY.C111_tensordot_fails"
   ],
   "note": "to_dense() gives the entries exactly when the declared type holds them (C111_dense); histories in one element type with numbers of types not above it and no division of integers keep this (C111_history_partial). It fails for values of a higher type than the options (C111_from_dense_fails), quotients of integers (C111_div_fails), sums of tensors of different types, which declare the type of their first block (C111_add_fails) or throw (C111_add_throws_fails), and contractions of different types throw (C111_tensordot_fails). The blocks of a product or quotient are always stored in a type that holds them (C111_stored). Values are exact numbers: overflow and rounding are not modelled, nor are booleans and half precision."
  },
  {
   "property": "C112",
   "status": "partial",
   "theorems": [
    "QuantiT.DM.C112_heisenberg_partial",
    "QuantiT.DM.C112_hubbard_partial",
    "QuantiT.DM.C112_spectrum",
    "QuantiT.DM.C112_heisenberg_cold_partial",
    "QuantiT.DM.C112_hubbard_cold_partial"
   ],
   "note": "C55 and C56 (the tensors are the textbook matrices) joined with C74 and C96 (the search), so that the statement mentions only the matrix over configurations, its eigenvalues and the amplitudes of the states. Partial for the reasons of C73, C74 and C96: every local update of the run must be regular, exact arithmetic. That the lowest eigenvalue is reached is not claimed, it is false of DMRG in general."
  },
  {
   "property": "C113",
   "status": "partial",
   "theorems": [
    "QuantiT.LA.C113_eigh",
    "QuantiT.LA.C113_regrouped",
    "QuantiT.LA.C113_eigh_fails",
    "QuantiT.LA.C113_rectangular",
    "QuantiT.LA.C113_cut_partial",
    "QuantiT.LA.C113_kept_fails",
    "QuantiT.LA.C113_dropped_fails"
   ],
   "note": "The full decomposition, the error for rectangular matrices and the limits on the number of values hold. A tensor that is not hermitian is not refused: the routine reads one triangle only and what it returns is then never a decomposition of the argument. The tolerance is compared with sums over the eigenvectors (C39): below 1/sqrt n nothing is dropped, from n on everything but the min_size lowest values is, for every tensor. The statements about the tolerance are for pow = 1, the default."
  },
  {
   "property": "C114",
   "status": "partial",
   "theorems": [
    "QuantiT.AnyQ.C114_program_partial",
    "QuantiT.AnyQ.C114_moved_fails",
    "QuantiT.AnyQ.C114_moved_reached",
    "QuantiT.AnyQ.C114_exchange"
   ],
   "note": "By simulation, for programs of any length. The last sentence is false: copy assignment to a variable that was moved from dereferences a null pointer, only a move or an assignment from a reference is defined; so is any use of its charge except copy and inverse, which take it for the trivial charge. The move assignment exchanges the variables; a product of two moved variables takes only the left one. Assignment between different groups throws although it is documented to work (C06)."
  },
  {
   "property": "C115",
   "status": "partial",
   "theorems": [
    "QuantiT.BN.C115_hubbard_partial",
    "QuantiT.BN.C115_heisenberg_partial",
    "QuantiT.BN.C115_sector"
   ],
   "note": "C84 and C104 (the block tensors are the textbook matrices, also after coalesce) joined with C82 and C97 (the search) and C91 (charges), so that the statement mentions only the matrix over configurations, charges of configurations and amplitudes. C115_sector: a lowest energy among states of charge q exists whenever some configuration has that charge, and it is a variational bound. Partial for the reasons of C82 and C97: every local update of the run must be one of those these speak of; couplings must be zero or above the threshold of C84; exact arithmetic over the reals."
  },
  {
   "property": "C116",
   "status": "partial",
   "theorems": [
    "QuantiT.BN.C116_run_partial",
    "QuantiT.BN.C116_cold_partial",
    "QuantiT.BN.C116_hubbard_partial",
    "QuantiT.BN.C116_heisenberg_partial"
   ],
   "note": "The block counterpart of C96, joined with C103 (the charge), C97 (truncated block updates) and C84 with C104 (the library's Hamiltonians). C116_run_partial: a run from any block chain with ends of one element. C116_cold_partial: the public call, whenever the random chain can be drawn (C47, C48). Partial: each update of the run must meet ReadyB: the two-site tensor must not be annihilated by the eigensolver, the truncation must leave no block of a section it removed, and on a normalised canonical pair the update must be one of C54; the energy of the first iteration on three sites is excluded because C96_three_sites_fails shows it can be below the spectrum."
  },
  {
   "property": "C117",
   "status": "partial",
   "theorems": [
    "QuantiT.DM.C117_dense_partial",
    "QuantiT.DM.C117_dense_cut_partial",
    "QuantiT.DM.C117_heisenberg_partial",
    "QuantiT.BN.C117_block_partial",
    "QuantiT.BN.C117_block_cut_partial",
    "QuantiT.DM.C117_first_fails",
    "QuantiT.DM.C117_zero_fails"
   ],
   "note": "Model of the two convergence criteria (dmrg.cpp:247 relative, dmrg.cpp:310 absolute) put into the sweep loop of C35. Number of sweeps bounded by 2 + (E - lo) / crit; for Heisenberg 2 + (L - 1) |J| / crit. Fails in two cases: the first sweep is compared with 100000, so a run whose first energy is within the criterion of that stops at once (C117_first_fails); the block search divides the change by the energy, so a run whose energy tends to zero, halved by every sweep, makes all the sweeps it may (C117_zero_fails). Partial: for the runs of C74, C82, C87 and C97 (same regularity conditions); the block theorems ask that no logged energy is closer to zero than delta."
  },
  {
   "property": "C118",
   "status": "partial",
   "theorems": [
    "QuantiT.TY.C118_to",
    "QuantiT.TY.C118_kept",
    "QuantiT.TY.C118_round_trip",
    "QuantiT.TY.C118_no_type_partial",
    "QuantiT.TY.C118_no_type_fails",
    "QuantiT.TY.C118_python_fails",
    "QuantiT.TY.C118_dmrg_exact",
    "QuantiT.TY.C118_dmrg_partial",
    "QuantiT.TY.C118_dmrg_fails"
   ],
   "note": "Values are complex numbers, as in C111; rounding, devices and gradients are not modelled. The conversions hold. Fails in three places: a tensor without blocks takes the default type when options without a type are given (C118_no_type_fails); the setter of dtype in Python throws its result away (C118_python_fails); dmrg converts every tensor of the Hamiltonian to the type of its first tensor when it ends, also by an exception, so that imaginary parts are lost if the first tensor is real (C118_dmrg_fails). The run itself is an arbitrary function of the two chains. Dense chains have the same guard; the theorems are stated for block tensors."
  },
  {
   "property": "C119",
   "status": "partial",
   "theorems": [
    "QuantiT.PY.C119_both_partial",
    "QuantiT.PY.C119_plain",
    "QuantiT.PY.C119_cpp",
    "QuantiT.PY.C119_end_fails",
    "QuantiT.PY.C119_sweep_fails",
    "QuantiT.PY.C119_never_called_fails"
   ],
   "note": "Proved for every class that defines both it_log_all and end_log_all, for dmrg_logger itself, and for every class derived in C++ whatever it overrides (C119_cpp). False otherwise for classes derived in Python: log_all of py_default_logger looks for end_log_all in Python and falls back on the C++ end_log_all, which calls log_all again. So a class without end_log_all never returns from a run, whatever the stack (C119_end_fails); a class with end_log_all and no it_log_all has end_log_all called after every sweep (C119_sweep_fails); log_all, log_step, log_energy and log_bond_dims of a class are never called (C119_never_called_fails). Not modelled: methods of the class that call super()."
  },
  {
   "property": "C12",
   "status": "partial",
   "theorems": [
    "QuantiT.FM.C12_hint_partial",
    "QuantiT.FM.C12_usual_hints_partial",
    "QuantiT.FM.C12_hint_fails"
   ],
   "note": "Proved for every hint with no smaller element beyond its successor, in particular end() and the lower bound; every other hint corrupts the map or drops the value (proved)."
  },
  {
   "property": "C120",
   "status": "partial",
   "theorems": [
    "QuantiT.PY.C120_cpp_right",
    "QuantiT.PY.C120_cpp_left_partial",
    "QuantiT.PY.C120_python_tensors",
    "QuantiT.PY.C120_python_right_partial",
    "QuantiT.PY.C120_python_left_partial",
    "QuantiT.PY.C120_cpp_div_fails",
    "QuantiT.PY.C120_python_fails",
    "QuantiT.PY.C120_python_other_fails"
   ],
   "note": "Proved: in C++ every operator that exists, but for x / t (undefined behaviour, C120_cpp_div_fails); in Python two tensors, t * x and the comparisons in both orders. False in Python: x * t, t / x, x / t, t + x, x + t, t - x, x - t raise TypeError for every tensor and number, because the product with a number on the left is registered as __mul__ instead of __rmul__ and the division as __div__, a name Python 3 does not use (C120_python_fails); a product or comparison with another object raises RuntimeError (C120_python_other_fails). The sums and differences with a number do not exist as operators in C++ either (t += x does, C94)."
  },
  {
   "property": "C121",
   "status": "partial",
   "theorems": [
    "QuantiT.SH.C121_values",
    "QuantiT.SH.C121_write_partial",
    "QuantiT.SH.C121_within",
    "QuantiT.SH.C121_separate_fails",
    "QuantiT.SH.C121_onsite_fails",
    "QuantiT.SH.C121_in_place_fails",
    "QuantiT.SH.C121_from_dense_fails"
   ],
   "note": "Proved: the values when made, which elements an assignment changes (exactly those made from the same element of the bulk tensor), and that elements of one site are separate. False between sites: all the tensors of a dense Hamiltonian are parts of one tensor, so that for two sites or more they are never separate (C121_separate_fails), a term assigned on one site is on all of them (C121_onsite_fails) and H[0] *= x also multiplies the last row of every other site (C121_in_place_fails). False of from_basic_tensor and from_basic_tensor_like: the block tensor holds slices of the dense tensor and follows it (C121_from_dense_fails). Missing: operations that reshape or copy references, and the block Hamiltonians, whose blocks are slices of the same tensors before coalesce."
  },
  {
   "property": "C122",
   "status": "partial",
   "theorems": [
    "QuantiT.BT.C122_eigh_partial",
    "QuantiT.BT.C122_rule_fails",
    "QuantiT.BT.C122_truncated_fails"
   ],
   "note": "Proved for operators of neutral rule whose trailing dimensions are the leading ones with opposite charges, that store every block their rule allows, and whose first sections together have a charge q with q + q = 0. For every other q, with a stored block, an exception escapes (C122_rule_fails; the cause is that of C43). With a tolerance or limits the call never returns a decomposition, because the eigenvalues are moved from before they are read (C122_truncated_fails). Missing: operators with an allowed block that is not stored (C67_missing_fails shows a wrong result), first sections without elements."
  },
  {
   "property": "C123",
   "status": "partial",
   "theorems": [
    "QuantiT.HM.C123_heisenberg_partial",
    "QuantiT.HM.C123_hubbard_partial",
    "QuantiT.HM.C123_integer_fails",
    "QuantiT.HM.C123_least_fails",
    "QuantiT.HM.C123_complex_fails",
    "QuantiT.HM.C123_complex_partial",
    "QuantiT.HM.C123_complex_exact",
    "QuantiT.HM.C123_complex_large_fails"
   ],
   "note": "Heisenberg: every real coupling and every integer whose opposite exists in its type (the least integer of a type gives the opposite coupling, C123_least_fails); a complex coupling makes tensors of integers, and with a real part between -2 and 2 the Hamiltonian is zero (C123_complex_fails); four times an integer between -63 and 64 is right (C123_complex_partial) and nothing else is (C123_complex_exact), and a real part at most -256 or at least 258, and no other, is undefined behaviour (C123_complex_large_fails). Hubbard: C123_hubbard_partial gives the exact set of arguments for which the result is right (an equivalence): real numbers, and integers for which the on-site energies fit into 8 bits; an integer repulsion of 128 to 255 becomes an attraction (C123_integer_fails). Unsigned, boolean and half precision couplings are not modelled."
  },
  {
   "property": "C124",
   "status": "partial",
   "theorems": [
    "QuantiT.DM.C124_move",
    "QuantiT.DM.C124_limit_partial",
    "QuantiT.DM.C124_limit_fails",
    "QuantiT.DM.C124_zero_fails",
    "QuantiT.DM.C124_defaults",
    "QuantiT.DM.C124_given",
    "QuantiT.BN.C124_block_partial",
    "QuantiT.BN.C124_block_fails"
   ],
   "note": "C124_move holds for every chain and target. C124_limit_partial is the claim for minimum_bond at most maximum_bond; C124_limit_fails shows that with a larger minimum every update of a large enough pair gives a bond above maximum_bond, and C124_defaults says which constructors give which case. minimum_bond = 0 is included if the cutoff is below one, otherwise the update throws (C124_zero_fails). C124_block_partial is one update of the block search: the limit holds if no two values at the bond coincide up to the relative precision of the truncation, and is exceeded if the largest value is met more often than the limit; C124_block_fails is an update with both limits 1 that gives a bond of 2. Missing: whole runs of the block search; updates that are not regular (a residual of the Lanczos step below 1e-15)."
  },
  {
   "property": "C125",
   "status": "partial",
   "theorems": [
    "QuantiT.MP.C125_step",
    "QuantiT.MP.C125_values",
    "QuantiT.MP.C125_sole",
    "QuantiT.MP.C125_edit_partial",
    "QuantiT.MP.C125_copy_fails",
    "QuantiT.MP.C125_to_fails",
    "QuantiT.MP.C125_fill_fails"
   ],
   "note": "C125_step and C125_values are the first sentence, C125_sole the second for programs without second handles. C125_edit_partial says which sites change in general: those that are handles on the same tensor; C125_copy_fails, C125_to_fails and C125_fill_fails show that copies, conversions of tensors that have the wanted type already and the sites of MPS(n, tensor, oc) are such. Missing: block chains, views of parts of a tensor (C121 has those of the Hamiltonians) and handles kept outside of the chains."
  },
  {
   "property": "C126",
   "status": "partial",
   "theorems": [
    "QuantiT.TY.C126_full",
    "QuantiT.TY.C126_add_partial",
    "QuantiT.TY.C126_sub_partial",
    "QuantiT.TY.C126_fraction_fails",
    "QuantiT.TY.C126_complex_fails"
   ],
   "note": "C126_full gives the outcome for all types: the number is converted, and a number with an imaginary part throws for a real type. C126_add_partial and C126_sub_partial hold when the type of the tensor holds c*alpha and all blocks are stored in the declared type. Otherwise the claim fails: a fraction added to integers is cut (C126_fraction_fails), a complex number added to a real tensor throws (C126_complex_fails). Values are exact numbers: overflow and rounding are not modelled; tensors without dimensions are left out."
  },
  {
   "property": "C127",
   "status": "partial",
   "theorems": [
    "QuantiT.TY.C127_mul",
    "QuantiT.TY.C127_div_partial",
    "QuantiT.TY.C127_div_complex",
    "QuantiT.TY.C127_div_integer_fails",
    "QuantiT.TY.C127_mixed_fails"
   ],
   "note": "For tensors whose blocks are all stored in the declared type C127_mul is the whole claim on products. C127_div_partial is that on quotients of real and complex tensors, C127_div_complex the case that throws. Quotients of integers always throw (C127_div_integer_fails), and with blocks of several types a product can throw after it has changed some of them (C127_mixed_fails). Values are exact numbers: overflow and rounding are not modelled; division by zero and tensors without dimensions are left out."
  },
  {
   "property": "C128",
   "status": "partial",
   "theorems": [
    "QuantiT.CT.C128_chains_partial",
    "QuantiT.CT.C128_block_chains_partial",
    "QuantiT.CT.C128_throw_partial",
    "QuantiT.CT.C128_back",
    "QuantiT.CT.C128_block_back",
    "QuantiT.CT.C128_op",
    "QuantiT.CT.C128_range_fails",
    "QuantiT.CT.C128_lost_fails",
    "QuantiT.CT.C128_block_lost_fails"
   ],
   "note": "C128_chains_partial holds for programs without constructions from iterators, which check nothing (C128_range_fails; bMPS leaves the center uninitialised there). C128_throw_partial holds for programs that build no checked chain from a moved train: the train is emptied before the check throws, and another attempt is undefined behaviour (C128_lost_fails, C128_block_lost_fails). Tensors are values here; C125 has the sharing."
  },
  {
   "property": "C129",
   "status": "partial",
   "theorems": [
    "QuantiT.OV.C129_batched_partial",
    "QuantiT.OV.C129_split",
    "QuantiT.OV.C129_python_split",
    "QuantiT.OV.C129_python_numbers",
    "QuantiT.OV.C129_python_refused",
    "QuantiT.OV.C129_flags_fails",
    "QuantiT.OV.C129_python_flags_fails",
    "QuantiT.OV.C129_python_batch_fails"
   ],
   "note": "C129_batched_partial holds for calls without flags and flags of the type BOOL. A flag of the type bool is converted to an integer rather than to BOOL: svd(t, some, compute_uv) splits the tensor after zero or one dimensions and truncates with the tolerance zero or one (C129_flags_fails). The functions without split of the Python module pass bool flags, so that svd(t) and eigh(t) in Python never are the batched decompositions (C129_python_flags_fails, C129_python_batch_fails). The overloads for dense tensors are not modelled."
  },
  {
   "property": "C13",
   "status": "partial",
   "theorems": [
    "QuantiT.BT.C13_history_partial",
    "QuantiT.BT.C13_entries_partial",
    "QuantiT.BT.C13_access_fails",
    "QuantiT.BT.C13_outside_fails",
    "QuantiT.BT.C13_size_fails",
    "QuantiT.BT.C13_empty_dimension_fails",
    "QuantiT.BT.C13_add_fails",
    "QuantiT.BT.C13_view_fails",
    "QuantiT.BT.C13_shift_fails"
   ],
   "note": "Every finite history of the 23 kinds of calls in `Reachable` (constructors, factories, insertion, permute, transpose, reshape, reshape_as, tensordot, sums, scaling, elementwise, conj, inversion, views, index_put, svd factors). Premises on the caller where the code does not check: block index and size on insertion, populated dimensions for factories, equal divisions into sections for sums and contractions, no block beside a view that fixes a trailing dimension; each shown necessary except the contraction sizes."
  },
  {
   "property": "C130",
   "status": "partial",
   "theorems": [
    "QuantiT.PY.C130_product_partial",
    "QuantiT.PY.C130_two_steps",
    "QuantiT.PY.C130_empty_fails",
    "QuantiT.PY.C130_eigh_fails",
    "QuantiT.PY.C130_same_object_fails"
   ],
   "note": "Proved for three different objects with at least one value in d. False otherwise: the arguments are moved from before the truncation, so a call that raises leaves them without dimensions and blocks (C130_empty_fails: d without blocks, as of a tensor without blocks); truncate(e, S, ...) always raises and empties both (C130_eigh_fails); truncate(U, d, U, ...) reads a tensor that has been moved from, undefined behaviour for all positive values (C130_same_object_fails). Not modelled: complex factors, and arguments that are not tensors or numbers."
  },
  {
   "property": "C131",
   "status": "partial",
   "theorems": [
    "QuantiT.PY.C131_chain_partial",
    "QuantiT.PY.C131_each",
    "QuantiT.PY.C131_lost_fails",
    "QuantiT.PY.C131_shift_fails"
   ],
   "note": "Proved for chains that start with any number of t_ followed by one method of any kind and then methods that change every element. False otherwise: all the methods but t_ return a copy, which shares the elements but not the sections, the rule and the arrangement. After such a method every later permute_, transpose_, cval_shift_ or t_ of the chain leaves the tensor as it was (C131_lost_fails, C131_shift_fails). Not modelled: methods with another tensor as argument, squeeze_, and the methods that set the selection rule."
  },
  {
   "property": "C14",
   "status": "proved",
   "theorems": [
    "QuantiT.BT.C14_odometer",
    "QuantiT.BT.C14_odometer_right"
   ],
   "note": "For any number of dimensions and any positive section counts."
  },
  {
   "property": "C15",
   "status": "partial",
   "theorems": [
    "QuantiT.BT.C15_factory_partial",
    "QuantiT.BT.C15_factory_fails",
    "QuantiT.BT.C15_sparse"
   ],
   "note": "Needs every dimension to have a section; with an empty dimension the loop reads outside the charges (proved)."
  },
  {
   "property": "C16",
   "status": "partial",
   "theorems": [
    "QuantiT.BT.C16_block_partial",
    "QuantiT.BT.C16_block_at",
    "QuantiT.BT.C16_block_fails",
    "QuantiT.BT.C16_length_fails"
   ],
   "note": "Holds for indices inside the grid. Out of grid indices are not rejected (a block can be created outside the grid) and an index of wrong length runs off the array (both proved)."
  },
  {
   "property": "C17",
   "status": "proved",
   "theorems": [
    "QuantiT.BT.C17_bijection",
    "QuantiT.BT.C17_decompose",
    "QuantiT.BT.C17_element_qtt",
    "QuantiT.BT.C17_beyond_fails"
   ],
   "note": "element_index_decompose itself does not throw beyond the dimension in a release build: it gives a section that does not exist (C17_beyond_fails)."
  },
  {
   "property": "C18",
   "status": "proved",
   "theorems": [
    "QuantiT.BT.C18_to_dense"
   ],
   "note": "For every conserving tensor (C13)."
  },
  {
   "property": "C19",
   "status": "partial",
   "theorems": [
    "QuantiT.BT.C19_from_basic_partial",
    "QuantiT.BT.C19_round_trip_partial",
    "QuantiT.BT.C19_rank",
    "QuantiT.BT.C19_sizes_fails"
   ],
   "note": "Proved for dense input of the right sizes and dimensions with at least one section. Sizes of the dense input are not checked (proved). The norm test is an arbitrary predicate on blocks."
  },
  {
   "property": "C20",
   "status": "partial",
   "theorems": [
    "QuantiT.BT.C20_permute",
    "QuantiT.BT.C20_inverse",
    "QuantiT.BT.C20_transpose",
    "QuantiT.BT.C20_transpose_twice",
    "QuantiT.BT.C20_transpose_fails",
    "QuantiT.BT.C20_permute_in_place",
    "QuantiT.BT.C20_transpose_in_place",
    "QuantiT.BT.C20_in_place_throws",
    "QuantiT.BT.C20_swap",
    "QuantiT.BT.C20_reject_partial",
    "QuantiT.BT.C20_reject_fails",
    "QuantiT.BT.C20_range_fails"
   ],
   "note": "Content, charges, rule and inverse proved for all permutations and negative aliases. Invalid lists are rejected only through torch when a block is stored; on an empty tensor a repeated dimension is accepted, and a dimension out of range is undefined behaviour, in permute and in transpose (proved). permute_ and transpose_ have the same results in place, and a throw leaves the tensor as it was."
  },
  {
   "property": "C21",
   "status": "partial",
   "theorems": [
    "QuantiT.BT.C21_add_exact_partial",
    "QuantiT.BT.C21_add_one_partial",
    "QuantiT.BT.C21_add_partial",
    "QuantiT.BT.C21_add_fails"
   ],
   "note": "Exact result proved; it equals a+alpha*b for alpha=1, or if no block of a precedes all blocks of b. Otherwise those blocks of a are multiplied by alpha (proved: a - 0 = -a)."
  },
  {
   "property": "C22",
   "status": "partial",
   "theorems": [
    "QuantiT.BT.C22_same_counts_partial",
    "QuantiT.BT.C22_sections_fails"
   ],
   "note": "Proved for tensors with the same number of sections in every dimension; the number of sections is not compared (proved)."
  },
  {
   "property": "C23",
   "status": "proved",
   "theorems": [
    "QuantiT.BT.C23_tensordot",
    "QuantiT.BT.C23_returns",
    "QuantiT.BT.C23_stored",
    "QuantiT.BT.C23_sizes_fails"
   ],
   "note": "Any conserving operands and any contraction whose sections match in size and have opposite charges, in every result tensordot returns. Sizes of contracted sections are not compared by the code (C23_sizes_fails)."
  },
  {
   "property": "C24",
   "status": "partial",
   "theorems": [
    "QuantiT.BT.C23_tensordot",
    "QuantiT.BT.C24_outer",
    "QuantiT.BT.C24_reject_charges",
    "QuantiT.BT.C24_reject_repeated",
    "QuantiT.BT.C24_range_fails"
   ],
   "note": "Rule, outer dimensions, absence of forbidden blocks and rejection proved for dimensions within the rank; a dimension beyond the rank is read out of bounds (proved)."
  },
  {
   "property": "C25",
   "status": "partial",
   "theorems": [
    "QuantiT.BT.C25_terminates_partial",
    "QuantiT.BT.C25_fails"
   ],
   "note": "Terminates for every contraction list unless a rank 0 operand holds a block; then it loops for ever (proved)."
  },
  {
   "property": "C26",
   "status": "partial",
   "theorems": [
    "QuantiT.BT.C26_fused_bijection",
    "QuantiT.BT.C26_reshape_partial",
    "QuantiT.BT.C26_reshape_as",
    "QuantiT.BT.C26_reshape_as_overwrite",
    "QuantiT.BT.C26_reshape_as_overwrite_reject",
    "QuantiT.BT.C26_reshape_as_round_trip",
    "QuantiT.BT.C26_round_trip_partial",
    "QuantiT.BT.C26_empty_group_fails"
   ],
   "note": "Proved for groupings without empty groups at the ends; an empty group reads outside the index groups (proved)."
  },
  {
   "property": "C27",
   "status": "proved",
   "theorems": [
    "QuantiT.BT.C27_inverse",
    "QuantiT.BT.C27_conj",
    "QuantiT.BT.C27_shape"
   ],
   "note": ""
  },
  {
   "property": "C28",
   "status": "partial",
   "theorems": [
    "QuantiT.BT.C28_shift_exact_partial",
    "QuantiT.BT.C28_shift_range",
    "QuantiT.BT.C28_shift_fails"
   ],
   "note": "Content kept always; conservation kept iff the tensor is empty or the shift is its own inverse (proved): the rule moves the wrong way."
  },
  {
   "property": "C29",
   "status": "proved",
   "theorems": [
    "QuantiT.BT.C29_refused"
   ],
   "note": ""
  },
  {
   "property": "C30",
   "status": "partial",
   "theorems": [
    "QuantiT.BT.C30_view_partial",
    "QuantiT.BT.C30_view_last_kept",
    "QuantiT.BT.C30_view_preserve_rank_partial",
    "QuantiT.BT.C30_trailing_fails"
   ],
   "note": "Proved for every pattern whose last dimension is kept, or whose fixed dimensions after the last kept one match all stored blocks; otherwise those fixed indices are ignored (proved)."
  },
  {
   "property": "C31",
   "status": "partial",
   "theorems": [
    "QuantiT.BT.C31_shape_from_partial",
    "QuantiT.BT.C31_reject_length",
    "QuantiT.BT.C31_reject_beyond",
    "QuantiT.BT.C31_below_fails"
   ],
   "note": "Entries below -1 are not rejected (proved)."
  },
  {
   "property": "C32",
   "status": "proved",
   "theorems": [
    "QuantiT.BT.C32_shape_from_list",
    "QuantiT.BT.C32_allowed"
   ],
   "note": ""
  },
  {
   "property": "C33",
   "status": "proved",
   "theorems": [
    "QuantiT.BT.C33_eye_like",
    "QuantiT.BT.C33_reject_rank",
    "QuantiT.BT.C33_eye",
    "QuantiT.BT.C33_unit_right",
    "QuantiT.BT.C33_unit_left"
   ],
   "note": ""
  },
  {
   "property": "C34",
   "status": "partial",
   "theorems": [
    "QuantiT.BT.C34_any_partial",
    "QuantiT.BT.C34_any_fails"
   ],
   "note": "Only the first stored block is examined, and without blocks the result is undefined (proved)."
  },
  {
   "property": "C35",
   "status": "partial",
   "theorems": [
    "QuantiT.BT.C35_find_rule",
    "QuantiT.BT.C35_reject_rank",
    "QuantiT.BT.C35_sizes_fails"
   ],
   "note": "Rule found and rank mismatch rejected; sizes of the dense tensor are not compared with the shape (proved)."
  },
  {
   "property": "C36",
   "status": "partial",
   "theorems": [
    "QuantiT.BT.C36_mul_partial",
    "QuantiT.BT.C36_equal",
    "QuantiT.BT.C36_in_place_partial",
    "QuantiT.BT.C36_wide_fails",
    "QuantiT.BT.C36_wide_in_place_fails",
    "QuantiT.BT.C36_in_place_rank_fails",
    "QuantiT.BT.C36_sections_rejected"
   ],
   "note": "The product with broadcasting is the entrywise product of the broadcast tensors, conserving, for every pair of conserving tensors that fit (any ranks, any entries with 0*x = x*0 = 0), except when a single wide section of the tensor of larger rank (the receiver, for equal ranks) meets a single element: the code then throws, and mul_ leaves a tensor that breaks the conservation rule. mul_ equals mul for an argument of no larger rank and is undefined behaviour otherwise. Equal section sizes: proved in full (C36_equal)."
  },
  {
   "property": "C37",
   "status": "proved",
   "theorems": [
    "QuantiT.C37_exact",
    "QuantiT.C37_truncation",
    "QuantiT.C37_factors",
    "QuantiT.C37_zero_min",
    "QuantiT.C37_zero_min_fails"
   ],
   "note": "Any number of batch rows, any non negative weight function in place of x^pow, exact arithmetic. min_size = 0 is outside the property: it counts as 1 if the whole weight of a row is above the tolerance (C37_zero_min), and ends with an index error if no row is (C37_zero_min_fails)."
  },
  {
   "property": "C38",
   "status": "partial",
   "theorems": [
    "QuantiT.C38_bounds_partial",
    "QuantiT.C38_min_fails",
    "QuantiT.C38_max_fails"
   ],
   "note": "Holds when max_size is at most the number of values and the tolerance is exceeded before min_size is reached. Otherwise min_size-1 values are kept or an index error escapes, and with max_size above the number of values the tolerance is never looked at (proved for all inputs)."
  },
  {
   "property": "C39",
   "status": "partial",
   "theorems": [
    "QuantiT.C39_order_partial",
    "QuantiT.C39_vectors_fails",
    "QuantiT.C39_order_fails"
   ],
   "note": "The order of eigh's pair is kept, but the truncation is computed from the eigenvectors: the eigenvalue 5 of diag(0,5) is dropped and 0 is kept (proved). The two argument truncate returns its arguments swapped (proved)."
  },
  {
   "property": "C40",
   "status": "partial",
   "theorems": [
    "QuantiT.BT.C40_largest",
    "QuantiT.BT.C40_min_partial",
    "QuantiT.BT.C40_max_partial",
    "QuantiT.BT.C40_factors_partial",
    "QuantiT.BT.C40_ties_fails",
    "QuantiT.BT.C40_zeros_fails",
    "QuantiT.BT.C40_factors_fails",
    "QuantiT.BT.C40_eigh_fails"
   ],
   "note": "Every block spectrum in exact arithmetic, blocks in decreasing order. Always: no discarded value is as large as a kept one, sizes and cut blocks of the factors. At least min when min values are positive; at most max when values differ by more than the degeneracy precision. Blocks of the other sections are never lost, and no block is stored twice. Blocks of emptied sections of U and V are all dropped only if no two are neighbours in the block list and the last is not one: otherwise some may stay; the list keeps its order unless the last block is one. Equal values are never separated, zeros are all dropped, and the truncation of an eigenvalue decomposition always throws."
  },
  {
   "property": "C41",
   "status": "proved",
   "theorems": [
    "QuantiT.BT.C41_compact"
   ],
   "note": "Every conserving tensor with at least two dimensions."
  },
  {
   "property": "C42",
   "status": "partial",
   "theorems": [
    "QuantiT.BT.C42_svd_partial",
    "QuantiT.BT.C42_empty_fails",
    "QuantiT.BT.C42_full_fails"
   ],
   "note": "Reduced factorisation of every conserving tensor whose dimensions all have positive size, for any dense factorisation returning factors of the documented sizes. A dimension of size zero makes svd throw invalid_argument (C42_empty_fails); with some=false the blocks of a non square matrix do not have the size of their section (C42_full_fails). As code: real tensors of torch's default type (C110)."
  },
  {
   "property": "C43",
   "status": "partial",
   "theorems": [
    "QuantiT.BT.C43_eigh_partial",
    "QuantiT.BT.C43_rule_fails"
   ],
   "note": "Exact: eigh succeeds if no block is stored or if the charge of the first section of the last dimension plus the charge of its first element is neutral, and otherwise throws invalid_argument for every conserving tensor with dimensions of positive size. As code: real tensors of torch's default type (C110)."
  },
  {
   "property": "C44",
   "status": "partial",
   "theorems": [
    "QuantiT.MP.C44_mps_partial",
    "QuantiT.MP.C44_mpo_partial",
    "QuantiT.MP.C44_fill",
    "QuantiT.MP.C44_empty_fails",
    "QuantiT.MP.C44_rank_fails",
    "QuantiT.MP.C44_block_partial",
    "QuantiT.MP.C44_block_sizes_fails",
    "QuantiT.MP.C44_block_empty_fails",
    "QuantiT.MP.C44_block_fill_partial",
    "QuantiT.MP.C44_block_fill_sizes_fails"
   ],
   "note": "Linked chains accepted and unlinked ones refused, for tensors of at least three dimensions; an empty chain or a tensor of lower rank is read out of bounds, and block chains are linked by charges only, not by section sizes (all proved)."
  },
  {
   "property": "C45",
   "status": "proved",
   "theorems": [
    "QuantiT.MP.C45_move_oc",
    "QuantiT.MP.C45_reject"
   ],
   "note": "Every linked dense chain, every center and target, any SVD satisfying its contract: same state, center at the target, sites passed over orthonormal. The block version is C80."
  },
  {
   "property": "C46",
   "status": "proved",
   "theorems": [
    "QuantiT.RM.C46_total",
    "QuantiT.RM.C46_distance"
   ],
   "note": "Every distance that is never negative and zero only for equal charges, every list of charges per site, number of passes and sequence of draws: the string returned picks an existing state per site and has exactly the total asked for, otherwise invalid_argument."
  },
  {
   "property": "C47",
   "status": "partial",
   "theorems": [
    "QuantiT.RM.C47_progression_partial",
    "QuantiT.RM.C47_complete_partial",
    "QuantiT.RM.C47_fails",
    "QuantiT.RM.C47_passes_fail"
   ],
   "note": "Proved when the charges of all sites are arithmetic progressions with a common step (spins, occupation numbers), and when one site has every charge of the group; false in general (C47_fails, C47_passes_fail for any number of passes)."
  },
  {
   "property": "C48",
   "status": "proved",
   "theorems": [
    "QuantiT.RM.C48_linked",
    "QuantiT.RM.C48_total",
    "QuantiT.RM.C48_outcomes",
    "QuantiT.RM.C48_uniform"
   ],
   "note": "Every number of sites, bond dimension, draw and distance. The division by the norm of each site is not modelled and the tensors describing the physical indices are taken to have a neutral selection rule."
  },
  {
   "property": "C49",
   "status": "proved",
   "theorems": [
    "QuantiT.DM.C49_tour",
    "QuantiT.DM.C49_sweeps",
    "QuantiT.DM.C49_only_update_fails"
   ],
   "note": "Any chain of at least two sites, any starting center, any number of sweeps, for every local update."
  },
  {
   "property": "C50",
   "status": "proved",
   "theorems": [
    "QuantiT.DM.C50_fresh_environments",
    "QuantiT.DM.C50_sweep"
   ],
   "note": "dmrg with cached environments gives the energies and tensors of the procedure that recomputes every environment from the current tensors."
  },
  {
   "property": "C51",
   "status": "partial",
   "theorems": [
    "QuantiT.DM.C51_partial",
    "QuantiT.DM.C51_dense_partial",
    "QuantiT.DM.C51_fails",
    "QuantiT.DM.C51_no_sweep_fails",
    "QuantiT.DM.not_rightOrth"
   ],
   "note": "Holds when sweeps start at the right end, or at the left end for the dense flavour (also proved with the dense tensors). From an inner site, or from the left end with block tensors, the reported center is one site left of the true one (proved for all such runs); also when maximum_iterations = 0 and the center is the last site."
  },
  {
   "property": "C52",
   "status": "partial",
   "theorems": [
    "QuantiT.DM.C52_log_partial",
    "QuantiT.DM.C52_step_fails"
   ],
   "note": "All clauses except the last: when the iteration limit is reached end_log_all gets one more than the last it_log_all (proved)."
  },
  {
   "property": "C53",
   "status": "proved",
   "theorems": [
    "QuantiT.DM.C53_lowest"
   ],
   "note": "All real inputs, exact arithmetic; never throws."
  },
  {
   "property": "C54",
   "status": "partial",
   "theorems": [
    "QuantiT.DM.C54_update_partial",
    "QuantiT.DM.C54_eigenvector_partial",
    "QuantiT.DM.C54_eigenvector_fails",
    "QuantiT.DM.C54_small_fails",
    "QuantiT.DM.C54_bound_fails"
   ],
   "note": "Real and complex, any inner product space, residual at least 1e-15 (then the energy strictly decreases and is the lowest on the span of the state and its image), or an exact eigenvector of negative energy. For an exact eigenvector of energy >= 0 the update returns the zero vector; for every residual between zero and 1e-15 it returns a vector that is not normalised, and can return a negative energy although no state has one (all proved)."
  },
  {
   "property": "C55",
   "status": "proved",
   "theorems": [
    "QuantiT.HM.C55_heisenberg",
    "QuantiT.HM.C55_pauli",
    "QuantiT.HM.C55_short"
   ],
   "note": "Every J in every field and every length of at least two; also lengths one (zero operator) and zero (undefined behaviour). Dense Heisenberg with entries of the type of J; couplings of other types are C123."
  },
  {
   "property": "C56",
   "status": "proved",
   "theorems": [
    "QuantiT.HM.C56_hubbard",
    "QuantiT.HM.C56_short",
    "QuantiT.HM.C56_sign_fails"
   ],
   "note": "Every U, mu and length of at least two; hopping enters with a plus sign, where the comment above the function documents a minus sign (C56_sign_fails)."
  },
  {
   "property": "C57",
   "status": "proved",
   "theorems": [
    "QuantiT.HM.C57_anticommute"
   ],
   "note": "All chain lengths, sites and spins, over any commutative ring; the matrices are those of fermions()."
  },
  {
   "property": "C58",
   "status": "partial",
   "theorems": [
    "QuantiT.C58_concat",
    "QuantiT.C58_prod",
    "QuantiT.C58_prod_slice",
    "QuantiT.C58_reverse_partial",
    "QuantiT.C58_reverse_fails"
   ],
   "note": "concat and prod proved; reverse appends as many zeros as there are dimensions (proved for every list)."
  },
  {
   "property": "C59",
   "status": "partial",
   "theorems": [
    "QuantiT.C59_tensorgdot_partial",
    "QuantiT.C59_broadcast_partial",
    "QuantiT.C59_roles_fails",
    "QuantiT.C59_reject_length",
    "QuantiT.C59_reject_sizes",
    "QuantiT.C59_reject_fit"
   ],
   "note": "For all contracted sizes that fit, also with size-one dimensions, which are broadcast: the result is beta*C + alpha*(A.B). The header documents alpha*C + beta*(A.B) (C59_roles_fails). Sizes are naturals of any magnitude; the code holds contracted sizes in int."
  },
  {
   "property": "C60",
   "status": "proved",
   "theorems": [
    "QuantiT.BT.C60_item"
   ],
   "note": ""
  },
  {
   "property": "C61",
   "status": "partial",
   "theorems": [
    "QuantiT.FM.C61_bounds_partial",
    "QuantiT.FM.C61_bounds_fails"
   ],
   "note": "upper_bound is right when a larger key exists, lower_bound only for present keys; otherwise wrong or undefined (proved)."
  },
  {
   "property": "C62",
   "status": "proved",
   "theorems": [
    "QuantiT.FM.C62_equality"
   ],
   "note": ""
  },
  {
   "property": "C63",
   "status": "proved",
   "theorems": [
    "QuantiT.BT.C63_anynan"
   ],
   "note": ""
  },
  {
   "property": "C64",
   "status": "partial",
   "theorems": [
    "QuantiT.BT.C64_sum_partial",
    "QuantiT.BT.C64_sum_fails"
   ],
   "note": "The value is right; with a non neutral rule the result is not a conserving tensor (proved)."
  },
  {
   "property": "C65",
   "status": "partial",
   "theorems": [
    "QuantiT.BT.C65_index_put_partial",
    "QuantiT.BT.C65_trailing_fails",
    "QuantiT.BT.C65_absent_fails"
   ],
   "note": "Blocks of the slice that the value does not store keep their old content instead of becoming zero, and a fixed dimension after the last kept one is read out of bounds (both proved)."
  },
  {
   "property": "C66",
   "status": "proved",
   "theorems": [
    "QuantiT.BT.C66_product",
    "QuantiT.BT.C66_orthonormal",
    "QuantiT.BT.C66_orthonormal_batch"
   ],
   "note": "Exact arithmetic over any star ring, any rank. With further dimensions the columns that belong to another section of those are zero, together with their values. Dimensions of positive size, reduced factorisation (the default). As code: real tensors of torch's default type (C110)."
  },
  {
   "property": "C67",
   "status": "partial",
   "theorems": [
    "QuantiT.BT.C67_product_partial",
    "QuantiT.BT.C67_orthonormal_partial",
    "QuantiT.BT.C67_orthonormal_batch_partial",
    "QuantiT.BT.C67_missing_fails"
   ],
   "note": "Tensors of any rank meeting the condition of C43 with every allowed block stored, exact arithmetic; a solver satisfying the hypotheses exists over the reals and complex numbers (spectral theorem). False when blocks are missing: rows and columns are placed in different orders. As code: real tensors of torch's default type (C110)."
  },
  {
   "property": "C68",
   "status": "proved",
   "theorems": [
    "QuantiT.BT.C68_product",
    "QuantiT.BT.C68_error_matrix",
    "QuantiT.BN.C68_error_split"
   ],
   "note": "Product: every factorisation, element types and truncation bounds, even where blocks of emptied sections stay behind in U and V (C40_factors_fails). Error formula: real or complex tensors of any rank and any split (C68_error_split), and tensors of two dimensions over any ordered field (C68_error_matrix), with at least one singular value, which a tensor that is not zero has. A dense SVD as assumed exists (denseSvd_exists, proved). As code: real tensors of torch's default type (C110)."
  },
  {
   "property": "C69",
   "status": "proved",
   "theorems": [
    "QuantiT.MP.C69_operator",
    "QuantiT.MP.C69_overlap",
    "QuantiT.MP.C69_trivial_ends"
   ],
   "note": "Dense chains of any length and sizes, entries in any commutative star ring; edges as given. torch's broadcasting of a contracted dimension of size one is not modelled."
  },
  {
   "property": "C70",
   "status": "partial",
   "theorems": [
    "QuantiT.MP.C70_select_partial",
    "QuantiT.MP.C70_default_fails"
   ],
   "note": "The selection is right when the last dimension is marked or none is, and otherwise writes one element past the end of the list it builds (C70_select_partial covers every list of marks). contract without edges and generate_env of dense chains always run into the second case (C70_default_fails)."
  },
  {
   "property": "C71",
   "status": "proved",
   "theorems": [
    "QuantiT.MP.C71_effective",
    "QuantiT.MP.C71_energy"
   ],
   "note": "Every chain and position; edges as given (their default construction is C70). Dense tensors, exact arithmetic."
  },
  {
   "property": "C72",
   "status": "proved",
   "theorems": [
    "QuantiT.DM.C72_isometry",
    "QuantiT.DM.C72_bound"
   ],
   "note": "Every chain and position. Isometry over every commutative star ring, the bound over the real and complex numbers. Dense tensors, exact arithmetic, edges of ones."
  },
  {
   "property": "C73",
   "status": "partial",
   "theorems": [
    "QuantiT.DM.C73_update_partial",
    "QuantiT.DM.C73_bound"
   ],
   "note": "Real and complex, exact arithmetic, edges of ones (their default construction is C70). Truncation in the SVD is C86. Left out: updates whose residual is below 1e-15 without being an exact eigenvector of negative energy, for which the claim is false (C54_eigenvector_fails, C54_small_fails)."
  },
  {
   "property": "C74",
   "status": "partial",
   "theorems": [
    "QuantiT.DM.C74_descent_partial"
   ],
   "note": "Whole runs, any number of sweeps and any criterion. Same restrictions as C73, for every update of the run; truncation is C87."
  },
  {
   "property": "C75",
   "status": "proved",
   "theorems": [
    "QuantiT.BN.C75_operator",
    "QuantiT.BN.C75_overlap"
   ],
   "note": "For any commutative semiring with conjugation and any abelian group of charges. Contractible dimensions are required section by section, as the code requires. Fuel bounds the loop of tensordot; every large enough fuel gives the same result."
  },
  {
   "property": "C76",
   "status": "proved",
   "theorems": [
    "QuantiT.BN.C76_effective"
   ],
   "note": "For any given edges that fit; C78 is about the edges the code makes."
  },
  {
   "property": "C77",
   "status": "partial",
   "theorems": [
    "QuantiT.BN.C77_overlap",
    "QuantiT.BN.C77_norm",
    "QuantiT.BN.C77_operator",
    "QuantiT.BN.C77_fails",
    "QuantiT.BN.C77_order_fails"
   ],
   "note": "Full characterisation of what the code computes when the ends have equal dimensions. The property itself fails: the default edge takes its rule from the first element of the inner dimensions, so contract(a,b) is silently 0 when those differ (C77_fails), and contract(a,b,obs) depends on the unspecified order in which arguments are evaluated when the ends of the operator carry charge (C77_order_fails). It holds for a = b."
  },
  {
   "property": "C78",
   "status": "partial",
   "theorems": [
    "QuantiT.BN.C78_edges",
    "QuantiT.BN.C78_effective",
    "QuantiT.BN.C78_order_fails"
   ],
   "note": "Holds when the ends of the operator carry no charge or the second argument of shape_from in edge_shape_prep is evaluated before the first; otherwise the edges are zero (C78_order_fails). C++ leaves that order open."
  },
  {
   "property": "C79",
   "status": "partial",
   "theorems": [
    "QuantiT.BT.C79_split_partial",
    "QuantiT.BT.C79_charges",
    "QuantiT.BT.C79_empty_fails"
   ],
   "note": "Every conserving tensor that stores a block, without dimensions of size zero, every split with both sides not empty. A tensor that stores no block is undefined behaviour (C79_empty_fails). Premises on the dense SVD are met by the SVD of real and complex matrices (dense_svd_exists). As code: real tensors of torch's default type (C110)."
  },
  {
   "property": "C80",
   "status": "partial",
   "theorems": [
    "QuantiT.BN.C80_outcomes",
    "QuantiT.BN.C80_move_oc_partial",
    "QuantiT.BN.C80_reject",
    "QuantiT.BN.C80_zero_fails"
   ],
   "note": "C80_outcomes: every block chain whose dimensions have sections and no empty ones, zero states included: the property holds unless the state is zero and the center comes to a tensor that stores no block, where the behaviour is undefined (C80_zero_fails). C80_move_oc_partial: every chain with a nonzero amplitude, empty sections allowed. Missing: zero states with empty sections. As code: real tensors of torch's default type (C110)."
  },
  {
   "property": "C81",
   "status": "partial",
   "theorems": [
    "QuantiT.BN.C81_update_partial",
    "QuantiT.BN.C81_disjoint_fails",
    "QuantiT.BN.C81_empty_fails"
   ],
   "note": "Real and complex, exact arithmetic, every group of charges. Edges as generate_env makes them. Truncation in the SVD is C97. Left out: residuals below 1e-15 as in C73; two-site tensors that share no block with their image, where the energy returned is strictly below that of the state returned (C81_disjoint_fails), and images without blocks, where the update throws (C81_empty_fails). As code: real tensors of torch's default type (C110)."
  },
  {
   "property": "C82",
   "status": "partial",
   "theorems": [
    "QuantiT.BN.C82_descent_partial"
   ],
   "note": "Whole runs, any number of sweeps and any criterion; truncation is C97. Same restrictions as C81, for every update of the run. As code: real tensors of torch's default type (C110)."
  },
  {
   "property": "C83",
   "status": "proved",
   "theorems": [
    "QuantiT.BN.C83_to_bMPO",
    "QuantiT.BN.C83_accuracy"
   ],
   "note": "Chains of at least two sites of any group of charges over any linearly ordered field (the norm is compared through its square). One site, where the last assignment overwrites the first, is modelled but not part of the claim."
  },
  {
   "property": "C84",
   "status": "partial",
   "theorems": [
    "QuantiT.BN.C84_heisenberg_coalesced",
    "QuantiT.BN.C84_hubbard_coalesced",
    "QuantiT.BN.C84_heisenberg_partial",
    "QuantiT.BN.C84_heisenberg_fails",
    "QuantiT.BN.C84_small_heisenberg_fails",
    "QuantiT.BN.C84_hubbard_partial",
    "QuantiT.BN.C84_hubbard_fails",
    "QuantiT.BN.C84_small_hubbard_fails"
   ],
   "note": "The property fails: Heisenberg throws for every coupling unless 2 p0 = p1 and 2 p1 = p0, so for the conserved magnetisation; Hubbard throws unless 2 p0 = 0 and p0 + p3 = p1 + p2; couplings between about 1e-8 and 1e-4 throw. For all other charges and couplings the operator is proved to be the Hamiltonian: before the compression over every ordered field (_partial), and compressed by coalesce over the real numbers (_coalesced). Missing: compression for a Heisenberg coupling that is exactly zero with charges, physical shapes with empty sections."
  },
  {
   "property": "C85",
   "status": "proved",
   "theorems": [
    "QuantiT.LA.C85_split",
    "QuantiT.LA.C85_truncated",
    "QuantiT.LA.C85_tol",
    "QuantiT.LA.C85_empty"
   ],
   "note": "Real and complex, exact arithmetic, two-norm (pow = 2, the default). The dense SVD of a matrix is a parameter with its laws; such a routine exists (denseSvd_exists). Tensors of less than 2^63 entries."
  },
  {
   "property": "C86",
   "status": "partial",
   "theorems": [
    "QuantiT.DM.C86_update_partial"
   ],
   "note": "Real and complex, exact arithmetic, two-site tensors of less than 2^63 entries; minimum_bond = 0 is allowed with a cutoff below one (C124_zero_fails for the others). Left out: as C73, updates whose residual is below 1e-15 without being an exact eigenvector of negative energy."
  },
  {
   "property": "C87",
   "status": "partial",
   "theorems": [
    "QuantiT.DM.C87_run_partial",
    "QuantiT.DM.C87_energy_partial"
   ],
   "note": "Every update of the run must be one of those of C86; for the bounds on the energies none may reach maximum_bond. Met by the example for every cutoff and limits (Props/CutEx)."
  },
  {
   "property": "C88",
   "status": "partial",
   "theorems": [
    "QuantiT.BT.C88_bmm",
    "QuantiT.BT.C88_reject",
    "QuantiT.BT.C88_reject_rank",
    "QuantiT.BT.C88_empty_fails"
   ],
   "note": "Complete for tensors every dimension of which has an element. The property fails for dimensions without elements: such operands are rejected (C88_empty_fails)."
  },
  {
   "property": "C89",
   "status": "partial",
   "theorems": [
    "QuantiT.BT.C89_squeeze_dim",
    "QuantiT.BT.C89_squeeze_partial",
    "QuantiT.BT.C89_squeeze_all_fails"
   ],
   "note": "squeeze(dim) is complete for every dimension with a section. squeeze() works exactly when the charges of the dimensions removed add up to zero and throws otherwise; the property fails there (C89_squeeze_all_fails)."
  },
  {
   "property": "C90",
   "status": "partial",
   "theorems": [
    "QuantiT.BT.C90_out_of_place_partial",
    "QuantiT.BT.C90_programs_partial",
    "QuantiT.BT.C90_add_temporary_fails",
    "QuantiT.BT.C90_add_temporary_empty_fails"
   ],
   "note": "Complete for add(const btensor&), mul, copies and assignments. The property fails for add(btensor&&) and sub(btensor&&): the operand *this is overwritten in the blocks it has in common with the temporary, and the sum of two tensors without blocks is undefined behaviour."
  },
  {
   "property": "C91",
   "status": "proved",
   "theorems": [
    "QuantiT.BT.C91_add_in_place",
    "QuantiT.BT.C91_add_unshared",
    "QuantiT.BT.C91_add_temporary",
    "QuantiT.BT.C91_mul_in_place",
    "QuantiT.BT.C91_self_move_fails"
   ],
   "note": "For all histories. The value of a sum is that of C21. C91_self_move_fails: a.add_(std::move(a), alpha) gives alpha*a."
  },
  {
   "property": "C92",
   "status": "partial",
   "theorems": [
    "QuantiT.BT.C92_allclose_exact_partial",
    "QuantiT.BT.C92_allclose_sound",
    "QuantiT.BT.C92_allclose_partial",
    "QuantiT.BT.C92_allclose_fails",
    "QuantiT.BT.C92_different_partial",
    "QuantiT.BT.C92_shapes_fails"
   ],
   "note": "True implies close entries, for all tensors. The converse holds for rtol = 0 or when the second tensor stores no block that the first does not; otherwise it fails, because blocks of the second tensor alone are compared with zeros as the reference (C92_allclose_fails). Tensors of different rules, or of different shapes with as many sections in every dimension, are never found close (C92_different_partial); others can be (C92_shapes_fails)."
  },
  {
   "property": "C93",
   "status": "proved",
   "theorems": [
    "QuantiT.BT.C93_add_scalar"
   ],
   "note": "Both the version out of place and in place."
  },
  {
   "property": "C94",
   "status": "partial",
   "theorems": [
    "QuantiT.BT.C94_scalar_div_fails",
    "QuantiT.BT.C94_scalar_div_partial"
   ],
   "note": "False of the code: whenever t stores a block, std::transform writes past the end of an empty list, which is undefined behaviour. Only t without blocks is fine."
  },
  {
   "property": "C95",
   "status": "partial",
   "theorems": [
    "QuantiT.MP.C95_histories_partial",
    "QuantiT.MP.C95_shrink_fails",
    "QuantiT.MP.C95_push_back_fails",
    "QuantiT.MP.C95_range_fails"
   ],
   "note": "Proved for all programs without the modifiers of std::vector (push_back, pop_back, erase, insert, clear). These break it: they neither check the tensors nor update the center, and after pop_back or erase a move of the center can be undefined behaviour. bMPS(begin,end) leaves its center uninitialised."
  },
  {
   "property": "C96",
   "status": "partial",
   "theorems": [
    "QuantiT.DM.C96_dmrg_partial",
    "QuantiT.DM.C96_run_partial",
    "QuantiT.DM.C96_random",
    "QuantiT.DM.C96_empty",
    "QuantiT.DM.C96_moving",
    "QuantiT.DM.C96_three_sites_fails"
   ],
   "note": "Proved for draws whose norm is not below 1e-15 and for runs in which the eigensolver annihilates no two-site tensor (it does not unless that is an eigenvector, C96_moving) and meets, once normalised, the states of C73. Fails in one place: on three sites the energy of the first iteration belongs to a chain that is not normalised and can lie below the spectrum (C96_three_sites_fails)."
  },
  {
   "property": "C97",
   "status": "partial",
   "theorems": [
    "QuantiT.BN.C97_update_partial",
    "QuantiT.BN.C97_run_partial",
    "QuantiT.BN.C97_energy_partial"
   ],
   "note": "Real and complex, exact arithmetic, every group of charges, every cutoff, minimum and maximum, a minimum of zero only with a cutoff below one and a maximum of at least one. Left out: the updates left out by C81, and truncations after which blocks of removed sections stay behind in U or V (C40_factors_fails; the condition is Spec.Tidy). The chains are canonical apart from elements of a bond that neither of its two sites uses. More elements than the maximum are used if the values tie (C40_ties_fails). As code: real tensors of torch's default type (C110)."
  },
  {
   "property": "C98",
   "status": "partial",
   "theorems": [
    "QuantiT.QVec.C98_program_partial",
    "QuantiT.QVec.C98_one_type",
    "QuantiT.QVec.C98_read_partial",
    "QuantiT.QVec.C98_no_type_fails",
    "QuantiT.QVec.C98_no_type_reached",
    "QuantiT.QVec.C98_charges_of_a_tensor"
   ],
   "note": "Programs that stay within bounds and do not copy, assign, measure or compare a list without type. Those are default constructed or moved from lists (C98_no_type_reached); copying, assigning and measuring one is undefined and it is not equal to itself (C98_no_type_fails). Iterators are positions; reserve, capacity, and conversion from a std::vector are not modelled."
  },
  {
   "property": "C99",
   "status": "partial",
   "theorems": [
    "QuantiT.BT.C99_compare_number_partial",
    "QuantiT.BT.C99_compare_number_fails",
    "QuantiT.BT.C99_functions",
    "QuantiT.BT.C99_pow_zero_fails",
    "QuantiT.BT.C99_isnan",
    "QuantiT.BT.C99_compare_tensors_partial",
    "QuantiT.BT.C99_compare_tensors_fails",
    "QuantiT.BT.C99_div_partial",
    "QuantiT.BT.C99_pow_partial",
    "QuantiT.BT.C99_pow_tensor_fails",
    "QuantiT.BT.C99_pow_in_place_partial",
    "QuantiT.BT.C99_pow_in_place_fails"
   ],
   "note": "sqrt, abs, pow with positive exponent, division by a number and isnan hold at every element, in exact arithmetic. Comparisons hold in stored blocks only: elsewhere the result is false, which C99_compare_number_fails shows to be wrong exactly if zero satisfies the comparison and some element is in no block. Quotients hold where the divisor is not zero and powers where the exponent is positive. Shapes that fit as in C36. pow_ of two tensors is pow unless a has to be repeated along a dimension: it passes its two functions in the wrong order, so that the one block is then raised to all exponents in turn (C99_pow_in_place_fails)."
  }
 ]
}