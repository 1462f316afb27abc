{"id": "C01", "title": "Cyclic conserved quantities form an abelian group", "statement": "For every cycle length N the class accepts, composing two C<N> values (op, +, *) always yields a stored value below N, the composition is commutative and associative, C<N>() is neutral, and x composed with x.inverse() is neutral.", "quantifier": "all cycle lengths N in the documented range and all pairs/triples of values", "why_tests_cant": "N is a compile-time parameter with 65535 choices and the operation has N^2 inputs per N; the 16 bit wrap-around only shows for large N.", "anchors": ["include/Conserved/quantity.h:C::op", "include/Conserved/quantity.h:C::inverse_", "include/Conserved/quantity.h:C::C()"]}
{"id": "C02", "title": "Building a cyclic quantity from a signed integer reduces it modulo N", "statement": "C<N>(v) holds the representative of v modulo N in [0,N) for every signed 16 bit v, so equal residues compare equal and negative literals denote inverses.", "quantifier": "all N and all 16 bit signed v", "why_tests_cant": "The branch-free reduction has a special case; only particular multiples of N misbehave, for each N.", "anchors": ["include/Conserved/quantity.h:C::C(int16_t)"]}
{"id": "C03", "title": "Integer charges are exact inside the representable window", "statement": "Composing and inverting Z charges agrees with integer addition and negation whenever the exact result fits in 16 bits, and the stored arithmetic is always an abelian group (wrap-around) so no reordering of a product can change a result.", "quantifier": "all pairs/triples/sequences of 16 bit charges", "why_tests_cant": "2^32 operand pairs and unbounded sequences of compositions.", "anchors": ["include/Conserved/quantity.h:Z::op", "include/Conserved/quantity.h:Z::inverse_"]}
{"id": "C04", "title": "Composite quantities compose, invert and compare component by component", "statement": "quantity<G1,...,Gk> and the type-erased any_quantity over it form an abelian group componentwise; == holds iff all components are equal; < is a strict total order (lexicographic) compatible with ==; mixing two different composite types throws bad_cast instead of producing a value.", "quantifier": "all lists of component groups with cycles no longer than 32768 (longer ones: C01), all values", "why_tests_cant": "Arbitrary numbers and kinds of components; strict-weak-order laws quantify over triples.", "anchors": ["include/Conserved/Composite/quantity_impl.h:quantity::op", "include/Conserved/Composite/quantity_impl.h:quantity::operator==", "include/Conserved/Composite/quantity_impl.h:quantity::operator<", "include/Conserved/Composite/cquantity.h:any_quantity"]}
{"id": "C05", "title": "Charge distance is zero exactly for equal charges", "statement": "distance2(a,b)=0 iff a==b, it is symmetric and never negative, for simple and composite quantities.", "quantifier": "all pairs of quantities of one type", "why_tests_cant": "Quantifies over all pairs of a user-chosen composite type.", "anchors": ["include/Conserved/quantity.h:distance2_impl", "include/Conserved/Composite/quantity_impl.h:distance2"]}
{"id": "C06", "title": "Assigning a type-erased quantity gives an equal independent value", "statement": "After a = b on any_quantity, a == b, whatever conserved type a held before (the documentation says assignment may change the held type).", "quantifier": "all pairs of held types and values", "why_tests_cant": "The pairs of types form an open-ended set; tests use one type at a time.", "anchors": ["include/Conserved/Composite/cquantity.h:any_quantity::operator=", "include/Conserved/Composite/quantity_impl.h:quantity::operator="]}
{"id": "C07", "title": "Permuting a packed list of quantities moves whole sections", "statement": "permute(permutation, section_counts) on a quantity vector yields the concatenation of the sections in permuted order, each section internally unchanged; the multiset of charges is preserved.", "quantifier": "all vectors, all section counts, all permutations", "why_tests_cant": "Unbounded lengths and factorially many permutations.", "anchors": ["include/Conserved/Composite/quantity_vector_impl.h:quantity_vector::permute"]}
{"id": "C08", "title": "A flat_map built and modified through its methods stays sorted and duplicate free", "statement": "After any finite sequence of construction from an unsorted range, insert, emplace, operator[], insert_or_assign, erase(position), merge and clear calls, iteration visits strictly increasing keys.", "quantifier": "all finite histories of container operations with arbitrary keys and values", "why_tests_cant": "Histories are unbounded; every later lookup is a binary search that silently relies on this.", "anchors": ["include/blockTensor/flat_map.h:flat_map::insert", "include/blockTensor/flat_map.h:flat_map::merge", "include/blockTensor/flat_map.h:flat_map::filter_unique"]}
{"id": "C09", "title": "flat_map behaves like a mathematical finite map", "statement": "at, find, contains and operator[] return the value last associated with the key by the history (insert/emplace never overwrite, insert_or_assign does, operator[] inserts a default), and at throws out_of_range exactly for absent keys.", "quantifier": "all histories and all query keys", "why_tests_cant": "Refinement over unbounded histories.", "anchors": ["include/blockTensor/flat_map.h:flat_map::at", "include/blockTensor/flat_map.h:flat_map::operator[]", "include/blockTensor/flat_map.h:flat_map::find"]}
{"id": "C10", "title": "Erasing a key removes that key only", "statement": "erase(key) removes the entry with that key if present and returns 1; if the key is absent it returns 0 and leaves the map unchanged.", "quantifier": "all maps and keys", "why_tests_cant": "Absent-key behaviour depends on the relative order of the key with every stored key.", "anchors": ["include/blockTensor/flat_map.h:flat_map::erase(const key_type&)"]}
{"id": "C11", "title": "Merging maps combines common keys and transforms only the incoming ones", "statement": "merge(source, collision, nocollision) yields the sorted union of the keys; values of common keys are collision(own, incoming); values of keys only in source are nocollision(incoming); values of keys only in the receiver are untouched.", "quantifier": "all pairs of maps, all collision and no-collision functions", "why_tests_cant": "The in-place backward merge interleaves runs in unboundedly many patterns.", "anchors": ["include/blockTensor/flat_map.h:flat_map::insert(const_iterator,const_iterator,Collision,NoCollision)", "include/blockTensor/flat_map.h:flat_map::merge"]}
{"id": "C12", "title": "A hinted insertion has the same effect as an unhinted one", "statement": "insert(hint, value) and emplace(hint, ...) give the same container contents as the call without a hint, for every position used as a hint.", "quantifier": "all maps, keys and hint positions", "why_tests_cant": "Correct hints are the usual test; wrong hints are allowed by the interface and number size+1 per map.", "anchors": ["include/blockTensor/flat_map.h:flat_map::use_hint", "include/blockTensor/flat_map.h:flat_map::emplace(const_iterator)"]}
{"id": "C13", "title": "Every stored block of a block tensor satisfies the selection rule", "statement": "For every block tensor reachable through constructors, factories, block insertion, permute, reshape, tensordot, sums with equal shapes, scalar multiplication, conjugation, charge inversion and index views, each stored block index lies within the sections, has the block shape given by the section sizes, and its charges compose to the tensor's selection rule.", "quantifier": "all finite histories of operations over arbitrary shapes, ranks, groups", "why_tests_cant": "Conservation is a global invariant over unbounded histories and ranks.", "anchors": ["sources/btensor.cpp:btensor::check_tensor", "sources/btensor.cpp:btensor::block_conservation_rule_test", "sources/btensor.cpp:btensor::permute", "sources/btensor.cpp:btensor::tensordot", "sources/btensor.cpp:btensor::reshape"]}
{"id": "C14", "title": "The block counter visits every block index exactly once", "statement": "The index increment used by all factories enumerates every index tuple of the section grid once and then returns to the all-zero tuple, in rank and section counts of any size.", "quantifier": "all ranks and section counts (each at least one)", "why_tests_cant": "Grids of every rank and size.", "anchors": ["sources/btensor.cpp:block_increment", "sources/btensor.cpp:factory_wrap"]}
{"id": "C15", "title": "Factories create exactly the allowed blocks", "statement": "zeros/ones/full/rand(..._like) create one block for every block index that satisfies the selection rule and none for any other index; the sparse variants create none.", "quantifier": "all shapes, groups, selection rules", "why_tests_cant": "All shapes.", "anchors": ["sources/btensor.cpp:factory_wrap", "sources/btensor.cpp:btensor::block_conservation_rule_test", "sources/btensor.cpp:btensor_compute_max_size"]}
{"id": "C16", "title": "Block access never creates a forbidden block", "statement": "block(index) returns a reference to the block at index, creating an empty one only if index satisfies the selection rule, and throws invalid_argument otherwise, leaving the tensor unchanged.", "quantifier": "all tensors and index tuples", "why_tests_cant": "All shapes and indices.", "anchors": ["sources/btensor.cpp:btensor::block", "sources/btensor.cpp:btensor::block_at"]}
{"id": "C17", "title": "Element positions and (section, offset) pairs are in bijection", "statement": "Decomposing an element position along a dimension gives a section and an offset within that section's size such that the sum of the preceding section sizes plus the offset is the position; element_conserved_qtt returns the charge of that section, and throws invalid_argument for a position beyond the dimension.", "quantifier": "all section size lists and positions", "why_tests_cant": "Unbounded section lists.", "anchors": ["sources/btensor.cpp:btensor::element_index_decompose", "sources/btensor.cpp:btensor::element_conserved_qtt", "sources/btensor.cpp:btensor::to_block_basis"]}
{"id": "C18", "title": "Converting to a dense tensor puts every element where its position says", "statement": "to_dense() has the dimension sizes reported by sizes(), and its entry at any multi-index is the block entry at the decomposed position, or zero when the block is not stored.", "quantifier": "all well-formed tensors and element positions", "why_tests_cant": "All shapes, block patterns and positions.", "anchors": ["sources/btensor.cpp:btensor::to_dense", "sources/btensor.cpp:full_slice", "sources/btensor.cpp:btensor::sizes"]}
{"id": "C19", "title": "Dense to block conversion round-trips on conserving data", "statement": "from_basic_tensor with cutoff 0 followed by to_dense returns the dense input whenever the input vanishes outside the allowed blocks; in general the allowed part is kept exactly and the rest is dropped; stored blocks are exactly the allowed blocks whose norm exceeds the cutoff. A dense tensor of another number of dimensions is rejected.", "quantifier": "all shapes, dense inputs and cutoffs", "why_tests_cant": "All inputs.", "anchors": ["sources/btensor.cpp:from_basic_impl", "sources/btensor.cpp:btensor::to_dense"]}
{"id": "C20", "title": "Permuting dimensions permutes dense content", "statement": "permute(p) of a tensor has, at any multi-index, the entry of the original at the correspondingly permuted multi-index; dimension sizes, section sizes and charges are permuted alike; the selection rule is unchanged; permuting by the inverse restores the tensor; a p that is not a permutation is rejected. permute_ and transpose_ do the same in place and leave the tensor unchanged when they throw; swap exchanges two tensors.", "quantifier": "all tensors, all permutations including negative dimension aliases", "why_tests_cant": "Factorially many permutations for every rank.", "anchors": ["sources/btensor.cpp:btensor::permute", "sources/btensor.cpp:btensor::transpose", "sources/btensor.cpp:btensor::permute_", "sources/btensor.cpp:btensor::transpose_", "sources/btensor.cpp:btensor::swap"]}
{"id": "C21", "title": "Adding tensors adds dense content", "statement": "add(a,b,alpha), a.add_, operator+ and operator- give a tensor whose entry everywhere is a + alpha*b, whatever blocks are stored on either side.", "quantifier": "all same-shape pairs, all alpha, all stored-block patterns", "why_tests_cant": "Depends on which blocks are present on each side; exponentially many patterns.", "anchors": ["sources/btensor.cpp:btensor::add_", "sources/btensor.cpp:btensor::add", "sources/btensor.cpp:btensor::sub"]}
{"id": "C22", "title": "Addition rejects tensors of different shape", "statement": "add and friends throw unless both tensors have the same sections per dimension, section sizes, charges and selection rule.", "quantifier": "all pairs of tensors", "why_tests_cant": "All shape pairs.", "anchors": ["sources/btensor.cpp:add_tensor_check", "sources/btensor.cpp:btensor::test_same_shape"]}
{"id": "C23", "title": "Tensor contraction of block tensors equals dense contraction", "statement": "tensordot(a,b,dims_a,dims_b) has, at any multi-index, the entry of the dense contraction of the two operands.", "quantifier": "all compatible operand pairs, contraction lists, stored-block patterns", "why_tests_cant": "The merge algorithm walks two block lists of any length in any interleaving.", "anchors": ["sources/btensor.cpp:btensor::tensordot", "sources/btensor.cpp:btensor::compute_tdot_shape"]}
{"id": "C24", "title": "Contraction combines selection rules and keeps the outer charges", "statement": "The result of tensordot has selection rule rule(a) composed with rule(b), outer sections and charges those of the uncontracted dimensions in order, and contains no forbidden block; it throws when the contracted charges are not mutual inverses.", "quantifier": "all operand pairs and contraction lists", "why_tests_cant": "All shapes.", "anchors": ["sources/btensor.cpp:btensor::compute_tdot_shape", "sources/btensor.cpp:btensor::check_product_compat"]}
{"id": "C25", "title": "Contraction always terminates", "statement": "tensordot returns or throws for every pair of operands and every contraction list, including an empty list (outer product).", "quantifier": "all operand pairs including rank zero", "why_tests_cant": "Termination is not observable by finite testing.", "anchors": ["sources/btensor.cpp:btensor::tensordot", "sources/btensor.cpp:next_index"]}
{"id": "C26", "title": "Grouping dimensions by reshape is reversible and keeps every element", "statement": "reshape(groups) fuses consecutive dimensions: fused section index is the row-major index of the fused sections, charges compose, sizes multiply; reshaping back with reshape_as(original) restores the tensor exactly.", "quantifier": "all tensors and groupings", "why_tests_cant": "All shapes.", "anchors": ["sources/btensor.cpp:btensor::reshape", "sources/btensor.cpp:btensor::reshape_as", "sources/btensor.cpp:reshape_block_index"]}
{"id": "C27", "title": "Inverting charges is an involution that keeps content and conservation", "statement": "inverse_cvals_ and conj invert all charges and the selection rule, keep the stored blocks admissible, and applying them twice restores the tensor.", "quantifier": "all tensors", "why_tests_cant": "All shapes and groups.", "anchors": ["sources/btensor.cpp:btensor::inverse_cvals_", "sources/btensor.cpp:btensor::conj"]}
{"id": "C28", "title": "Shifting charges along a dimension keeps the tensor conserving", "statement": "cval_shift(shift, dim) leaves the content of a conserving tensor unchanged and conserving: stored blocks satisfy the new rule.", "quantifier": "all tensors, shifts, dimensions", "why_tests_cant": "Holds for neutral or self-inverse shifts even if wrong in general.", "anchors": ["sources/btensor.cpp:btensor::cval_shift_"]}
{"id": "C29", "title": "Changing the rule or charges without conservation is refused on non-empty tensors", "statement": "set_selection_rule_, shift_selection_rule_, neutral_shape_ and non_conserving_cval_shift_ throw logic_error and change nothing if the tensor stores a block.", "quantifier": "all tensors", "why_tests_cant": "All shapes.", "anchors": ["sources/btensor.cpp:btensor::set_selection_rule_", "sources/btensor.cpp:btensor::shift_selection_rule_", "sources/btensor.cpp:btensor::non_conserving_cval_shift_"]}
{"id": "C30", "title": "A view at fixed positions contains the slice of the original", "statement": "basic_create_view(dims) returns a tensor whose entry at the remaining indices equals the original entry with the fixed positions inserted, with the selection rule reduced by the fixed charges.", "quantifier": "all tensors, fixed/free patterns, positions", "why_tests_cant": "Exponentially many fixed/free patterns per rank.", "anchors": ["sources/btensor.cpp:btensor::basic_create_view", "sources/btensor.cpp:btensor::shape_from"]}
{"id": "C31", "title": "shape_from keeps the free dimensions and absorbs the fixed charges", "statement": "shape_from(dims) keeps sections, sizes and charges of the -1 dimensions in order, its selection rule is the original rule with the charges of the fixed sections removed, and any other out of range entry is rejected.", "quantifier": "all tensors and dims lists", "why_tests_cant": "All shapes and patterns.", "anchors": ["sources/btensor.cpp:btensor::shape_from"]}
{"id": "C32", "title": "The outer shape of several tensors concatenates them", "statement": "shape_from(a,b,...) concatenates the dimensions of its arguments in order and composes their selection rules; a block of the result is allowed iff its index splits into parts whose charges compose to that rule.", "quantifier": "all lists of shapes", "why_tests_cant": "All shapes.", "anchors": ["sources/btensor.cpp:shape_from", "sources/btensor.cpp:tensor_product_shape"]}
{"id": "C33", "title": "eye is the unit of contraction", "statement": "eye_like(shape) stores exactly the allowed diagonal blocks, each an identity.", "quantifier": "all square shapes", "why_tests_cant": "All shapes.", "anchors": ["sources/btensor.cpp:eye_like", "sources/btensor.cpp:eye"]}
{"id": "C34", "title": "any() reports a true element anywhere in the tensor", "statement": "any() on a boolean block tensor is true iff some element of some stored block is true.", "quantifier": "all block patterns", "why_tests_cant": "Depends on the order of all blocks.", "anchors": ["sources/btensor.cpp:btensor::any"]}
{"id": "C35", "title": "find_selection_rule finds the unique compatible rule or throws", "statement": "For a dense tensor and shape, find_selection_rule returns the charge common to all non-zero blocks and throws logic_error if they disagree.", "quantifier": "all shapes and dense inputs", "why_tests_cant": "All inputs.", "anchors": ["sources/btensor.cpp:find_selection_rule"]}
{"id": "C36", "title": "Broadcasting a product keeps conservation and dense content", "statement": "mul(a,b) with equal shapes multiplies entrywise; single-section size-one dimensions broadcast; the result only contains allowed blocks.", "quantifier": "all compatible pairs", "why_tests_cant": "All shapes.", "anchors": ["sources/btensor.cpp:btensor::mul", "sources/btensor.cpp:mul_helpers::shape_compute", "sources/btensor.cpp:broadcast_operation"]}
{"id": "C37", "title": "Truncation keeps between min and max values and discards no more than allowed", "statement": "compute_last_index keeps at least min_size values (or all there are), never more than max(min_size,max_size), discards weight at most tol^pow unless max_size forces more, and discards as many as those constraints permit.", "quantifier": "all weight lists, tolerances and bounds with at least one value and min_size at least 1", "why_tests_cant": "All lists and parameters.", "anchors": ["sources/LinearAlgebra.cpp:compute_last_index", "sources/LinearAlgebra.cpp:truncate"]}
{"id": "C38", "title": "The ascending truncation respects its size bounds", "statement": "compute_first_index_ascending returns an index that keeps between min_size and max_size values.", "quantifier": "all lists and bounds", "why_tests_cant": "Boundary parameters trigger unsigned wrap-around.", "anchors": ["sources/LinearAlgebra.cpp:compute_first_index_ascending"]}
{"id": "C39", "title": "Truncating an eigen-decomposition is driven by the eigenvalues", "statement": "truncate of a (values, vectors) pair and eigh with a tolerance drop the entries whose eigenvalues are negligible, and return the pair in the same order.", "quantifier": "all decompositions", "why_tests_cant": "All inputs.", "anchors": ["sources/LinearAlgebra.cpp:truncate(tuple)", "sources/btensor_linalg.cpp:truncate(tuple<btensor,btensor>)"]}
{"id": "C40", "title": "Block truncation keeps the globally largest singular values", "statement": "truncating a block singular value decomposition keeps at least min and at most max values over all blocks together, never discards a value larger than a kept one, and drops the blocks of U and V that belong to an emptied block of d.", "quantifier": "all block spectra, bounds and tolerances", "why_tests_cant": "Interplay of any number of blocks, ties and zeros.", "anchors": ["sources/btensor_linalg.cpp:truncate_impl", "sources/btensor_linalg.cpp:remove_unit_blocks"]}
{"id": "C41", "title": "Collecting blocks of equal charge into dense matrices loses nothing", "statement": "Before a factorisation, every stored block appears in exactly one dense matrix, at row and column ranges disjoint from those of every other block of that matrix, blocks grouped only with blocks of equal row and column charge.", "quantifier": "all conserving block tensors with at least two dimensions (the last two are the rows and columns)", "why_tests_cant": "All block patterns.", "anchors": ["sources/btensor_linalg.cpp:compact_dense", "sources/btensor_linalg.cpp:compact_dense_single", "sources/btensor_linalg.cpp:reorder_by_cvals"]}
{"id": "C42", "title": "Factors of a singular value decomposition are conserving tensors", "statement": "svd(tensor) produces U with the input's rule, V with a neutral rule and d neutral, where every produced block satisfies its rule, so no exception escapes for a conserving input.", "quantifier": "all conserving inputs", "why_tests_cant": "All shapes and groups.", "anchors": ["sources/btensor_linalg.cpp:svd"]}
{"id": "C43", "title": "Eigen-decomposition of a conserving tensor does not throw a conservation error", "statement": "eigh(tensor) succeeds for every conserving square tensor.", "quantifier": "all conserving inputs", "why_tests_cant": "All shapes and groups.", "anchors": ["sources/btensor_linalg.cpp:eigh"]}
{"id": "C44", "title": "MPS and MPO construction accepts exactly the well-linked chains", "statement": "Constructing an MPS (MPO) from tensors succeeds iff all have rank 3 (4) and neighbouring bond dimensions agree, and the orthogonality center given is inside the chain; otherwise invalid_argument is thrown.", "quantifier": "all lists of tensor shapes and centers", "why_tests_cant": "All lists.", "anchors": ["include/MPT.h:MPS::MPS", "sources/MPT.cpp:MPS::check_ranks", "sources/MPT.cpp:MPO::check_ranks", "include/MPT.h:bMPS::bMPS", "include/MPT.h:bMPO::bMPO", "sources/MPT.cpp:bMPS::check_one", "sources/MPT.cpp:bMPO::check_one"]}
{"id": "C45", "title": "Moving the orthogonality center keeps the state and canonicalises the chain", "statement": "On a dense MPS, move_oc(i) throws for i outside the chain; otherwise it ends with orthogonality_center == i, the represented state is unchanged, every site passed over rightwards is left-orthonormal and every site passed over leftwards is right-orthonormal.", "quantifier": "all chains, all start and target positions", "why_tests_cant": "Chains of any length and bond dimension.", "anchors": ["sources/MPT.cpp:MPS::move_oc"]}
{"id": "C46", "title": "Random strings satisfy the requested total charge", "statement": "When the random string generator returns, the charges it selected compose to the requested total, whatever the random numbers; the recorded distance is always the true one.", "quantifier": "all physical index lists, lengths, passes and random choices", "why_tests_cant": "All random outcomes.", "anchors": ["sources/MPT.cpp:generate_random_string"]}
{"id": "C47", "title": "A satisfiable total charge is always reached", "statement": "If some choice of physical states has the requested total charge then random_bMPS succeeds with the number of passes it chooses.", "quantifier": "all physical index lists and totals", "why_tests_cant": "All inputs.", "anchors": ["sources/MPT.cpp:generate_random_string", "sources/MPT.cpp:random_bMPS"]}
{"id": "C48", "title": "A random block MPS has the requested total charge and linked bonds", "statement": "Every bond of the random block MPS carries, on its two sides, inverse charges and equal section sizes, and every generated charge string corresponds to an allowed block at each site.", "quantifier": "all lengths, bond dimensions and strings", "why_tests_cant": "All inputs.", "anchors": ["sources/MPT.cpp:make_right_side", "sources/MPT.cpp:random_bMPS_impl"]}
{"id": "C49", "title": "A DMRG sweep stays inside the chain and returns to its start", "statement": "For every chain of at least two sites and every starting center, each local update touches sites oc and oc+1 that exist, each sweep updates every neighbouring pair, and ends at the center and direction it started from, so the surprising-center runtime_error is never raised.", "quantifier": "all chain lengths, all starting centers, any number of sweeps", "why_tests_cant": "Unbounded chain lengths and sweep counts.", "anchors": ["sources/dmrg.cpp:sweep", "sources/dmrg.cpp:dmrg_2sites_update", "sources/dmrg.cpp:dmrg_impl"]}
{"id": "C50", "title": "Every local DMRG update uses up-to-date environments", "statement": "At each two-site update the left environment is the contraction of the current tensors of all sites to the left and the right environment of all sites to the right.", "quantifier": "all chain lengths, starting centers, update functions and sweep counts", "why_tests_cant": "Staleness shows only after particular turn-arounds.", "anchors": ["sources/dmrg.cpp:generate_env_impl", "sources/dmrg.cpp:dmrg_2sites_update"]}
{"id": "C51", "title": "DMRG returns a state whose orthogonality center is where it says", "statement": "After dmrg, the tensors left of orthogonality_center are left-orthonormal and those to its right are right-orthonormal.", "quantifier": "all chain lengths and starting centers", "why_tests_cant": "Depends on start position, chain length and dense or block flavour.", "anchors": ["sources/dmrg.cpp:dmrg_impl"]}
{"id": "C52", "title": "DMRG stops, and logs each sweep once", "statement": "dmrg performs at most maximum_iterations sweeps, stops at the first sweep whose energy change is not above the criterion, calls init once, it_log_all once per sweep with consecutive numbers, end_log_all once, and the last it_log_all and end_log_all receive the same step number.", "quantifier": "all energy sequences, criteria and iteration limits", "why_tests_cant": "All energy histories.", "anchors": ["sources/dmrg.cpp:dmrg_impl", "include/dmrg_logger.h:dmrg_logger"]}
{"id": "C53", "title": "The two-by-two eigenproblem returns the lowest eigenpair", "statement": "eig2x2Mat(a0,a1,b) returns the smallest eigenvalue of [[a0,b],[b,a1]] and a unit eigenvector for it, for every real input including diagonal and scalar matrices.", "quantifier": "all real a0,a1,b (exact arithmetic)", "why_tests_cant": "All reals; the singular branches are measure zero.", "anchors": ["sources/dmrg.cpp:eig2x2Mat_impl"]}
{"id": "C54", "title": "A local update returns a normalised state of no higher energy", "statement": "For a normalised two-site state and a symmetric effective Hamiltonian, the updated state is normalised and the returned energy is its expectation value and does not exceed the previous one.", "quantifier": "all states and Hamiltonians (exact arithmetic)", "why_tests_cant": "All inputs.", "anchors": ["sources/dmrg.cpp:one_step_lanczos_impl", "sources/dmrg.cpp:two_sites_update_impl"]}
{"id": "C55", "title": "The Heisenberg MPO represents the nearest-neighbour Hamiltonian at every length", "statement": "Contracting the MPO of Heisenberg(J,L) gives the sum over neighbours of -J/4 (2 S+S- + 2 S-S+ + SzSz).", "quantifier": "all L at least 2, all J", "why_tests_cant": "All chain lengths; tests check length 3.", "anchors": ["sources/models.cpp:Heisenberg_impl", "sources/models.cpp:Heisenberg"]}
{"id": "C56", "title": "The Hubbard MPO represents the Hubbard Hamiltonian at every length", "statement": "Contracting the MPO of Hubbard(U,mu,L) gives the sum of on-site terms and of the fermionic hopping terms between neighbours.", "quantifier": "all L at least 2, all U, mu", "why_tests_cant": "All chain lengths.", "anchors": ["sources/models.cpp:Hubbard"]}
{"id": "C57", "title": "The fermion operators anticommute across a chain of any length", "statement": "The annihilation operators on sites i and j of a chain, dressed with the phase operator F on preceding sites, satisfy the canonical anticommutation relations.", "quantifier": "all chain lengths, sites and spins", "why_tests_cant": "All pairs of sites in chains of any length.", "anchors": ["sources/operators.cpp:fermions"]}
{"id": "C58", "title": "Dimension list helpers compute what they are named after", "statement": "concat concatenates, prod multiplies the listed dimensions (n of them from start), reverse returns the list in reverse order with the same length.", "quantifier": "all lists and ranges", "why_tests_cant": "All lists.", "anchors": ["sources/dimension_manip.cpp:concat", "sources/dimension_manip.cpp:prod", "sources/dimension_manip.cpp:reverse"]}
{"id": "C59", "title": "Generalised contraction scales its inputs as documented", "statement": "tensorgdot(C,A,B,...,beta,alpha) computes alpha*C + beta*(A.B) as documented in its header.", "quantifier": "all tensors and scalars", "why_tests_cant": "Default arguments are both one, hiding the roles.", "anchors": ["sources/tensorgdot.cpp:tensorgdot", "include/tensorgdot.h:tensorgdot"]}
{"id": "C60", "title": "item() extracts the only element", "statement": "item() returns the single stored value for a one-element tensor, zero if no block is stored, and throws logic_error if more than one block is stored.", "quantifier": "all tensors", "why_tests_cant": "All block patterns.", "anchors": ["sources/btensor.cpp:btensor::item"]}
{"id": "C61", "title": "lower_bound and upper_bound of flat_map point where the standard says", "statement": "lower_bound(k) is the position of the first entry whose key is not less than k, upper_bound(k) of the first entry whose key is greater than k, end() if there is none.", "quantifier": "all maps and keys", "why_tests_cant": "The answer depends on the order of the key relative to all stored keys; tests use present keys.", "anchors": ["include/blockTensor/flat_map.h:flat_map::lower_bound", "include/blockTensor/flat_map.h:flat_map::upper_bound"]}
{"id": "C62", "title": "flat_map equality is equality of the maps", "statement": "Two containers compare equal exactly when they associate the same values to the same keys.", "quantifier": "all pairs of sorted containers", "why_tests_cant": "Extensionality over all keys.", "anchors": ["include/blockTensor/flat_map.h:operator==(flat_map,flat_map)"]}
{"id": "C63", "title": "anynan() finds a NaN anywhere in the tensor", "statement": "anynan() is true exactly when some element of some stored block is NaN.", "quantifier": "all tensors and block patterns", "why_tests_cant": "All block patterns; depends on short-circuit order.", "anchors": ["sources/btensor.cpp:btensor::anynan"]}
{"id": "C64", "title": "sum() is the sum of all entries", "statement": "sum() returns a rank 0 tensor whose value is the sum of the entries of the dense tensor, and which is itself a conserving tensor.", "quantifier": "all conserving tensors", "why_tests_cant": "All block patterns and selection rules.", "anchors": ["sources/btensor.cpp:btensor::sum"]}
{"id": "C65", "title": "basic_index_put_ writes a slice and nothing else", "statement": "basic_index_put_(dims, value) makes the slice at the fixed positions equal to value and leaves every other entry unchanged.", "quantifier": "all tensors, patterns of fixed and kept dimensions and values", "why_tests_cant": "All block patterns of the tensor and of the value; entries absent on one side matter.", "anchors": ["sources/btensor.cpp:btensor::basic_index_put_"]}
{"id": "C66", "title": "The factors of a singular value decomposition multiply back to the tensor", "statement": "For (U, d, V) = svd(tensor), every entry of the tensor is the sum over the new bond of U * d * conj(V), and the columns of U and of V over that bond are orthonormal.", "quantifier": "all conserving tensors of the default element type (others: C110), all groups, every dense factorisation that satisfies these laws on a single matrix", "why_tests_cant": "Depends on which blocks are stored, in which order columns are met, and how many matrices share a charge.", "anchors": ["sources/btensor_linalg.cpp:svd", "sources/btensor_linalg.cpp:compact_dense", "sources/btensor_linalg.cpp:compact_dense_single"]}
{"id": "C67", "title": "eigh of a hermitian tensor is an eigenvector decomposition", "statement": "For (d, U) = eigh(tensor) of a hermitian tensor, every entry of the tensor is the sum over the new bond of U * d * conj(U), and the columns of U over that bond are orthonormal.", "quantifier": "all hermitian conserving tensors, all groups, every dense solver that satisfies these laws on a single hermitian matrix", "why_tests_cant": "Depends on which blocks are stored and in which order rows and columns are met.", "anchors": ["sources/btensor_linalg.cpp:eigh", "sources/btensor_linalg.cpp:compact_dense_single"]}
{"id": "C68", "title": "A truncated SVD only loses the discarded terms", "statement": "Multiplying the factors returned by truncate(U,d,V) gives, at every entry, the sum of the terms U*d*V of the values that were kept. When (U,d,V) came from svd(tensor), the square of the Frobenius distance between tensor and this product is the sum of the squares of the discarded singular values, and no sum of as many products of a tensor of the first dimensions and one of the others is nearer to the tensor.", "quantifier": "all factorisations with sorted blocks and at least one value, all truncation parameters with min >= 1 and a non-negative tolerance; the error formula: all real conserving tensors of the default element type (others: C110) with at least one singular value, all splits of their dimensions, every dense SVD satisfying the laws of an SVD on a single matrix", "why_tests_cant": "Depends on the interplay of the sections of three tensors cut independently, for every block structure and spectrum.", "anchors": ["sources/btensor_linalg.cpp:truncate", "sources/btensor_linalg.cpp:truncate_impl", "sources/btensor_linalg.cpp:svd"]}
{"id": "C69", "title": "contract computes the matrix element of the chains", "statement": "contract(a, b, obs, left, right) of dense chains is the sum over all configurations of the physical indices of a(sigma) * obs(tau, sigma) * conj(b(tau)), closed by the edge tensors; contract(a, b, left, right) is the sum of a(sigma) * conj(b(sigma)). With ends of size one and edges of ones these are <b|obs|a> and <b|a>.", "quantifier": "all chains of any length, all bond and physical dimensions, all entries, all edges", "why_tests_cant": "The claim is a sum over exponentially many configurations, for every chain; a test compares a few small chains.", "anchors": ["sources/MPT.cpp:contract"]}
{"id": "C70", "title": "The shape of selected dimensions of a dense tensor", "statement": "shape_from(tensor, inds) of a dense tensor has the sizes of the dimensions marked -1, in order; contract and generate_env without explicit edges use it to build edges that fit their chains.", "quantifier": "all shapes, all lists of marks, all chains", "why_tests_cant": "An out of bounds write of one element usually does no visible damage in a test.", "anchors": ["sources/btensor.cpp:shape_from(const torch_shape&, const std::vector<int64_t>)", "sources/MPT.cpp:contract", "sources/dmrg.cpp:edge_shape_prep", "sources/dmrg.cpp:generate_env_impl"]}
{"id": "C71", "title": "Environments and two-site Hamiltonian represent the whole Hamiltonian", "statement": "For a dense chain in which two neighbouring sites are described by one tensor theta, the environments of the other sites and the two-site Hamiltonian computed by DMRG turn hamil2site_times_state into the compression of the whole MPO: its inner product with any two-site tensor phi is <Psi(phi)|H|Psi(theta)>. The energy a local update starts from is contract(state, state, hamiltonian).", "quantifier": "all chain lengths and positions, all bond and physical dimensions, all tensors", "why_tests_cant": "The claim is about sums over exponentially many configurations, at every position of every chain.", "anchors": ["sources/dmrg.cpp:compute_left_env", "sources/dmrg.cpp:compute_right_env", "sources/dmrg.cpp:compute_2sitesHamil", "sources/dmrg.cpp:hamil2site_times_state", "sources/dmrg.cpp:generate_env_impl"]}
{"id": "C72", "title": "Canonical form makes the two-site problem variational", "statement": "For a dense chain whose sites left of a pair are left-orthonormal and right of it right-orthonormal, the two-site tensor and the whole state have the same inner products. So the energy the two-site Hamiltonian gives any normalised two-site tensor is an energy of a normalised state, and is never below the spectrum of the whole Hamiltonian.", "quantifier": "all chain lengths and positions, all bond and physical dimensions, all canonical sites, all two-site tensors, all Hamiltonians as MPOs", "why_tests_cant": "It is about sums over exponentially many configurations and about every vector of the Hilbert space.", "anchors": ["sources/dmrg.cpp:hamil2site_times_state", "include/MPT.h:MPS::move_oc", "sources/dmrg.cpp:compute_left_env"]}
{"id": "C73", "title": "One DMRG update keeps a normalised state and lowers its energy", "statement": "One two-site update without truncation, in either direction, on a normalised chain that is canonical around the pair, for a hermitian MPO: it returns a chain with the same sites and ends, canonical around the new center, normalised; the energy returned is the expectation value of the whole Hamiltonian in it; it is not above the energy before, below it if the residual was not negligible, the lowest on the span of the two-site state and its image, and never below the spectrum.", "quantifier": "all chain lengths, positions and directions, all bond and physical dimensions, all hermitian MPOs, all normalised canonical chains", "why_tests_cant": "Energy and norm are properties of the whole state; the claim is for all states and Hamiltonians.", "anchors": ["sources/dmrg.cpp:dmrg_2sites_update", "sources/dmrg.cpp:two_sites_update", "sources/dmrg.cpp:one_step_lanczos", "sources/dmrg.cpp:eig2x2Mat"]}
{"id": "C74", "title": "A DMRG run returns the energy of the state it returns and never raises it", "statement": "dmrg on a normalised dense chain canonical around its center, hermitian MPO, no truncation: it returns; the energy returned is the expectation value of the Hamiltonian in the state left in in_out_state, which has norm one; it is at most the energy of the initial state and at least the lowest eigenvalue; every logged energy is the expectation value in the logged state, and the logged energies never increase.", "quantifier": "all chains of two sites or more, all hermitian MPOs, all positions of the center, all iteration limits and convergence criteria", "why_tests_cant": "A statement about whole runs of unbounded length, on states of unbounded size.", "anchors": ["sources/dmrg.cpp:dmrg", "sources/dmrg.cpp:dmrg_impl", "sources/dmrg.cpp:dmrg_2sites_update"]}
{"id": "C75", "title": "Contracting block chains with given edges is the full sum over configurations", "statement": "For block-sparse MPS a, b (and a block MPO) whose bonds and sites can be contracted, contract(a,b,obs,left,right) and contract(a,b,left,right) return a scalar equal to the sum over every configuration of the dense tensors the blocks stand for, closed by the edges; its selection rule is the sum of the rules, those of b negated.", "quantifier": "all groups of conserved charges, all lengths, all section structures (including several sections of equal charge), all stored block patterns, any commutative coefficients with conjugation", "why_tests_cant": "the sum has exponentially many terms and the section structures are unbounded; the tests contract a few random chains", "anchors": ["sources/MPT.cpp:contract", "sources/btensor.cpp:tensordot", "sources/btensor.cpp:conj"]}
{"id": "C76", "title": "The block two-site Hamiltonian is the compression of the whole operator", "statement": "For a block chain and block MPO, applying hamil2site_times_state with the left and right environments and the two-site Hamiltonian gives, for any two-site block tensor theta, the tensor whose inner product with any phi is <Psi(phi)|H|Psi(theta)>; the result has the shape of theta and the rule of theta plus that of the operator.", "quantifier": "all chains, positions, operators, section structures and two-site tensors", "why_tests_cant": "DMRG on conserving states is right only if this holds for every bond and sector; a test can compare one energy", "anchors": ["sources/dmrg.cpp:compute_left_env, compute_right_env, compute_2sitesHamil, hamil2site_times_state"]}
{"id": "C77", "title": "contract(a,b) and contract(a,b,obs) of block chains without edges are the overlap and the matrix element", "statement": "Without edges, contract makes them: the result is the overlap (matrix element) traced over the ends.", "quantifier": "all block chains with equal end dimensions and no empty dimension", "why_tests_cant": "whether the default edges hold the right block depends on the order of sections and the charges inside the end tensors", "anchors": ["sources/MPT.cpp:contract", "sources/dmrg.cpp:edge_shape_prep"]}
{"id": "C78", "title": "generate_env makes edges that close a block chain", "statement": "The edges made by generate_env for a block Hamiltonian and state are ones wherever charges allow it, fit the ends, and for ends with a single element make the effective two-site Hamiltonian the compression of the whole operator.", "quantifier": "all block chains and operators without empty dimensions", "why_tests_cant": "depends on the charges at the ends and on the evaluation order of arguments, which a test on one compiler cannot vary", "anchors": ["sources/dmrg.cpp:edge_shape_prep, generate_env"]}
{"id": "C79", "title": "svd of a block tensor between two groups of its dimensions factorises it", "statement": "svd(tensor, split) returns U, d, V: U has the first split dimensions and a bond, V the others with opposite charges and the bond, each entry of the tensor is the sum over the bond of U * d * conj(V), columns of U and of V over the bond are orthonormal, U keeps the selection rule and d and V are neutral.", "quantifier": "all conserving tensors of any rank, all splits, groups and section structures, every dense factorisation that satisfies the laws of an SVD on a single matrix", "why_tests_cant": "Depends on how the sections of several dimensions fuse and which blocks are stored; tests use a few tensors, none of them without blocks.", "anchors": ["sources/btensor_linalg.cpp:svd(const btensor&, size_t)", "sources/btensor.cpp:btensor::shape_from"]}
{"id": "C80", "title": "Moving the orthogonality center of a block MPS keeps the state, the charges and canonicalises the chain", "statement": "bMPS::move_oc(i) throws for i outside the chain; otherwise it ends with the center at i, the same state, the same physical and outer dimensions with their charges and the same total selection rule; every site passed over rightwards is left-orthonormal and every site passed over leftwards right-orthonormal, other sites are untouched, and tensors still fit.", "quantifier": "all block chains of any length, groups, section structures and stored blocks, all centers and targets", "why_tests_cant": "Chains of any length and every distribution of charges over the bonds.", "anchors": ["sources/MPT.cpp:bMPS::move_oc"]}
{"id": "C81", "title": "One update of the block DMRG keeps charges and norm and lowers the energy", "statement": "One two-site update without truncation of a normalised conserving chain, canonical around the pair, for a hermitian conserving MPO: it returns a chain with the same physical and outer dimensions, charges and total selection rule, canonical around the new center and normalised; the energy returned is the expectation value of the whole Hamiltonian in it, not above the energy before, and the lowest on the span of the two-site state and its image.", "quantifier": "all groups of charges, section structures and stored blocks, all chain lengths, positions and directions, all hermitian conserving MPOs, all normalised canonical block chains", "why_tests_cant": "Which blocks are stored differs between every state; the claim is about whole states of exponential size.", "anchors": ["sources/dmrg.cpp:dmrg_2sites_update", "sources/dmrg.cpp:two_sites_update_impl", "sources/dmrg.cpp:one_step_lanczos_impl", "sources/dmrg.cpp:eig2x2Mat_impl"]}
{"id": "C82", "title": "A block DMRG run returns the energy of the state it returns and never raises it", "statement": "dmrg on a normalised conserving chain canonical around its center, hermitian conserving MPO, no truncation: it returns; the energy returned is the expectation value of the Hamiltonian in the state returned, which has norm one and the charges of the initial state; it is at most the energy of the initial state and at least the lowest eigenvalue; every logged energy is the expectation value in the logged state, and logged energies never increase.", "quantifier": "all block chains of two sites or more, all groups, all hermitian conserving MPOs, all centers, iteration limits and convergence criteria", "why_tests_cant": "Whole runs of unbounded length on states of unbounded size.", "anchors": ["sources/dmrg.cpp:dmrg", "sources/dmrg.cpp:dmrg_impl", "sources/dmrg.cpp:dmrg_2sites_update"]}
{"id": "C83", "title": "Turning a dense MPO into a block MPO keeps the operator or throws", "statement": "to_bMPO on a chain of two or more tensors that fit the given local shape: if every entry either has the charges of the selection rule and lies in a block of norm above 1e-4, or is below allclose's absolute tolerance 1e-8, it returns one conserving block tensor per site, with the local shape (its left bond cut to the last position at the first site, its right bond to the first position at the last site) that holds the given entries; otherwise it throws invalid_argument. Whatever it returns differs from the given tensors by at most 2e-8 in every entry.", "quantifier": "all abelian groups, local shapes of rank four, chain lengths and tensors", "why_tests_cant": "Entry by entry claim over all operators, shapes and charges, with a cutoff and a tolerance that interact.", "anchors": ["sources/models.cpp:to_bMPO", "sources/btensor.cpp:from_basic_tensor_like", "sources/btensor.cpp:basic_create_view"]}
{"id": "C84", "title": "The block Heisenberg and Hubbard Hamiltonians are the dense ones", "statement": "Heisenberg(J, length, phys_shape) and Hubbard(U, mu, length, phys_shape) give a chain of conserving block tensors whose operator is the Heisenberg (Hubbard) Hamiltonian, for every physical shape whose charges the Hamiltonian conserves and every coupling.", "quantifier": "all lengths from two, couplings, abelian groups and charges of the physical states", "why_tests_cant": "Unbounded chain length, all groups of charges and all couplings; the tests only use charges and couplings for which the construction works.", "anchors": ["sources/models.cpp:Heisenberg", "sources/models.cpp:Hubbard", "sources/models.cpp:to_bMPO"]}
{"id": "C85", "title": "The truncated SVD of a dense tensor is the best approximation of its size, within the tolerance", "statement": "svd(A, split) cuts the dimensions of a dense tensor in two groups and returns u, d, v with A = u diag(d) v^H entry by entry, orthonormal columns and decreasing non negative d. svd(A, split, tol, min_size, max_size) keeps k of them, min_size <= k <= max_size where there are that many: the distance to A is at most tol unless max_size limits k, no other sum of k column-row products is closer to A, and no sum of fewer (but at least min_size) products is within tol. A tensor without entries throws.", "quantifier": "all tensors of any rank and sizes, all splits, all tolerances, all limits with min_size >= 1, every dense factorisation that satisfies the laws of an SVD on a single matrix", "why_tests_cant": "optimality quantifies over all other approximations; tests look at a few random matrices", "anchors": ["sources/LinearAlgebra.cpp:svd", "sources/LinearAlgebra.cpp:truncate", "sources/LinearAlgebra.cpp:compute_last_index"]}
{"id": "C86", "title": "A DMRG update with truncation gives the best chain of its bond, and its energy is off by at most the weight lost", "statement": "One two-site update of dense DMRG with cutoff, minimum_bond and maximum_bond: the state stays normalised and canonical; the energy returned is that of the state found before truncation and is not above the previous energy; the bond is within its limits; the weight lost is at most cutoff^2 unless maximum_bond is reached; no other pair of tensors with a bond not larger overlaps more with the state found, and none with a smaller bond (at least minimum_bond) keeps the loss within the cutoff; the energy of the new chain differs from the one returned by at most the width of the spectrum times the square root of the weight lost.", "quantifier": "all chains with ends of size one in canonical form around the pair, all hermitian MPOs, all pairs, both directions, all cutoffs, all limits with minimum_bond >= 1 or a cutoff below one, every dense SVD that satisfies its laws", "why_tests_cant": "optimality quantifies over all other tensors; the energy bound over all Hamiltonians and states", "anchors": ["sources/dmrg.cpp:two_sites_update", "sources/dmrg.cpp:details::one_step_lanczos", "sources/LinearAlgebra.cpp:svd", "include/dmrg_options.h:dmrg_options"]}
{"id": "C87", "title": "A DMRG run with truncation returns a normalised state within its bond limit, whose energy is the one returned up to the cutoff", "statement": "A whole dense DMRG run with cutoff and bond limits returns; the state returned is normalised with the same physical sizes; the energy returned is within the bounds of the spectrum; each logged state is normalised with every bond at most the larger of maximum_bond and minimum_bond; if no update reaches maximum_bond, each energy logged is that of its state up to the width of the spectrum times the cutoff, and energies grow by at most that much per update (not at all without cutoff).", "quantifier": "all chains, Hamiltonians, cutoffs, limits, numbers of sweeps and convergence criteria; every update regular as in C73", "why_tests_cant": "the number of sweeps, sites and the Hamiltonian are unbounded; a run has many truncations whose errors must add up", "anchors": ["sources/dmrg.cpp:dmrg_impl", "sources/dmrg.cpp:sweep", "sources/dmrg.cpp:two_sites_update", "sources/MPT.cpp:MPS::move_oc"]}
{"id": "C88", "title": "bmm multiplies every pair of matrices of two batches", "statement": "a.bmm(b) of two conserving tensors of the same rank (two or more) whose first dimensions have the same section sizes and whose matrices fit section by section in size and opposite charge: the result has the first dimensions with the charges of both operands added, the rows of a, the columns of b and the sum of the selection rules, and every matrix of the batch is the product of the two. Operands that do not fit are rejected with invalid_argument.", "quantifier": "all groups of charges, ranks, section structures and stored blocks, any semiring of entries", "why_tests_cant": "The loops walk over two differently sorted block lists and skip; which blocks meet depends on the block patterns of both operands.", "anchors": ["sources/btensor.cpp:btensor::bmm", "sources/btensor.cpp:mul_helpers::check_bmm_compatibility"]}
{"id": "C89", "title": "squeeze removes dimensions of one element and nothing else", "statement": "squeeze(dim) of a dimension with one element removes it, takes its charge out of the selection rule and keeps every entry, and does nothing for any other dimension; squeeze() does so for all dimensions with one element.", "quantifier": "all conserving tensors, groups, section structures and positions", "why_tests_cant": "All block patterns and charges; whether it works depends on the charges of the dimensions removed.", "anchors": ["sources/btensor.cpp:btensor::squeeze", "sources/btensor.cpp:btensor::squeeze_"]}
{"id": "C90", "title": "Operations out of place do not change any existing tensor", "statement": "After any program over block tensors (copies, assignments, sums, products, operations in place), a statement that makes a new tensor - a copy, add, sub, mul, operator+ and operator- - leaves the value of every variable as it was and gives the new one the value of the operation; a program without operations in place cannot observe that copies share storage.", "quantifier": "all programs of any length, all tensors and numbers", "why_tests_cant": "copies share storage block by block, and which blocks are shared depends on the history of the program; tests look at the result and rarely at the operands", "anchors": ["sources/btensor.cpp:btensor::add", "sources/btensor.cpp:btensor::mul", "include/blockTensor/btensor.h:btensor::sub"]}
{"id": "C91", "title": "An operation in place changes its target, and other tensors only in the blocks they share with it", "statement": "After any program: a.add_(b,alpha) gives a the value of a.add(b,alpha); in any other variable, b included, a block changes exactly when its storage is shared with the block of a at that index and b stores a block there, and then becomes the new block of a (as documented: shallow copies see updates of the blocks present when they were made). Without sharing nothing else changes. The same for mul_, and for add_ of a temporary or moved-from other variable b, where b is left without blocks.", "quantifier": "all programs of any length, all patterns of sharing", "why_tests_cant": "the pattern of shared storage depends on the whole history", "anchors": ["sources/btensor.cpp:btensor::add_", "sources/btensor.cpp:btensor::mul_", "include/blockTensor/btensor.h:btensor::sub_"]}
{"id": "C92", "title": "allclose on block tensors is allclose on their entries", "statement": "For two block tensors of the same shape and selection rule, allclose(a,b,rtol,atol) is true exactly when |a_e - b_e| <= atol + rtol*|b_e| for every element e, whichever zero blocks are stored; tensors of different shapes are not close.", "quantifier": "all pairs of tensors, all tolerances", "why_tests_cant": "the answer must not depend on which zeros are stored, for all patterns of blocks", "anchors": ["sources/btensor.cpp:allclose", "sources/btensor.cpp:btensor::test_same_shape"]}
{"id": "C93", "title": "Adding a number to a block tensor", "statement": "t.add(c,alpha) and t.add_(c,alpha) add c*alpha to every element that the selection rule allows, stored or not, and leave the others zero; the result keeps its selection rule.", "quantifier": "all tensors with a section in every dimension, all numbers", "why_tests_cant": "holds for every pattern of stored and missing blocks", "anchors": ["sources/btensor.cpp:btensor::add", "sources/btensor.cpp:full_like"]}
{"id": "C94", "title": "Dividing a number by a block tensor", "statement": "c / t divides c by every stored element of t.", "quantifier": "all tensors and numbers", "why_tests_cant": "the number of blocks varies", "anchors": ["sources/btensor.cpp:operator/"]}
{"id": "C95", "title": "An MPS variable is always a linked chain with its center inside", "statement": "After any program over MPS variables (constructions, copies, moves, assignments, swaps, moves of the orthogonality center, changes through the container interface) every variable is empty or a chain of rank three tensors with matching bonds whose orthogonality center is one of its sites, represents the state it was given, and its center can be moved to any site.", "quantifier": "all programs of any length, over any number of variables", "why_tests_cant": "holds over all histories of constructions, copies, moves and modifications", "anchors": ["include/MPT.h:MPS", "include/MPT.h:vector_lift", "include/MPT.h:bMPS"]}
{"id": "C96", "title": "Dense DMRG without a starting state", "statement": "A dense DMRG that is given a Hamiltonian and no state draws a chain that fits the Hamiltonian and returns a state of norm one with the physical dimensions of the Hamiltonian; every iteration leaves a state of norm one and bonds no larger than allowed; the energies reported lie within the spectrum of the Hamiltonian and are those of the states up to the weight truncated.", "quantifier": "all MPOs, all numbers drawn, all options, all numbers of sweeps, all exact SVDs", "why_tests_cant": "the chain it starts from is random and neither normalised nor canonical; holds for all draws", "anchors": ["sources/dmrg.cpp:dmrg", "sources/MPT.cpp:random_MPS", "sources/MPT.cpp:random_MPS_impl"]}
{"id": "C97", "title": "Block DMRG with truncation", "statement": "One two-site update of the block DMRG returns the energy of the state it found before truncation, which is not above the previous energy; the new chain conserves the charges, has norm one, is canonical where the sweep goes on, and is the best approximation of that state with as many elements of the bond as it uses, which are no more than the options ask for unless values are equal. Over a run the energies reported lie within the spectrum and are those of the chains up to the weight truncated.", "quantifier": "all hermitian block MPOs that leave the charge unchanged, all normalised canonical block chains, all cutoffs and limits of the bond, all numbers of sweeps, all exact SVDs, entries of the default element type (others: C110)", "why_tests_cant": "the truncation empties sections of the bond and keeps ties, so the chain is only canonical up to unused elements; holds for all chains, limits and runs", "anchors": ["sources/dmrg.cpp:two_sites_update", "sources/btensor_linalg.cpp:svd", "sources/btensor_linalg.cpp:truncate_impl", "sources/dmrg.cpp:dmrg_2sites_update", "sources/dmrg.cpp:dmrg_impl"]}
{"id": "C98", "title": "Lists of quantities of a type known at run time", "statement": "A program that creates, copies, moves, assigns, swaps and modifies lists of conserved quantities whose type is only known at run time, within their bounds, has the effect of the same program on plain lists: every statement changes its own list only; putting in a quantity of another type throws bad_cast and changes nothing, and all quantities of a list have one type after every history.", "quantifier": "all programs over any number of such lists, all types of quantities, all positions and ranges, with the exceptions caught", "why_tests_cant": "histories of modifications through a type-erased interface; a quantity of the wrong type, a moved from list or a refused statement may come at any point", "anchors": ["include/Conserved/Composite/quantity_vector.h:any_quantity_vector", "include/Conserved/Composite/quantity_vector_impl.h:quantity_vector", "sources/btensor.cpp:c_vals_from_struct_list"]}
{"id": "C99", "title": "Functions of elements and comparisons", "statement": "sqrt, abs, powers, division and isnan of a block tensor, in place or not, apply the function to every element and keep shape and rule; comparing a block tensor with a number or another tensor, with broadcasting, gives the comparison of the elements at every element.", "quantifier": "all groups of charges, all conserving tensors, all shapes that fit, all numbers and all six comparisons, at every element, whether in a stored block or not", "why_tests_cant": "elements outside of the stored blocks are never computed, so a test must happen on a shape with such elements, a function and a number for which zero is not mapped to zero", "anchors": ["sources/btensor.cpp:le", "sources/btensor.cpp:ge", "sources/btensor.cpp:eq", "sources/btensor.cpp:less", "sources/btensor.cpp:not_equal", "sources/btensor.cpp:greater", "sources/btensor.cpp:sqrt", "sources/btensor.cpp:abs", "sources/btensor.cpp:pow", "sources/btensor.cpp:div", "sources/btensor.cpp:isnan", "sources/btensor.cpp:broadcast_operation"]}
{"id": "C100", "title": "What a tensor reports about its dimensions", "statement": "A block tensor built from a list of dimensions reports the number, sizes and charges of the sections of each dimension, the dimension sizes and the charge at an element as listed; asking for what does not exist throws; the constructor from parts accepts exactly consistent parts; and the number of allowed blocks is counted exactly.", "quantifier": "all lists of dimensions, all dimension, section and element indices, all block lists, in release and debug builds", "why_tests_cant": "the sections of all dimensions are in one array, so a wrong offset or a missing check reads a section of another dimension and shows only for some shapes and indices", "anchors": ["sources/btensor.cpp:section_size", "sources/btensor.cpp:section_conserved_qtt", "sources/btensor.cpp:element_conserved_qtt", "sources/btensor.cpp:check_tensor", "sources/btensor.cpp:btensor_compute_max_size", "sources/btensor.cpp:tensor_list_size_guess", "include/blockTensor/btensor.h:block_prop_view"]}
{"id": "C101", "title": "Chains are Python sequences", "statement": "Through Python a chain of tensors is a sequence: positive and negative indices, slices with any step, assignment, insertion, removal, append, pop and clear return and leave what they do for a list, an exception is raised exactly where a list raises one, and a slice of a matrix product state is still centered where it says.", "quantifier": "all chains, all histories of operations, all indices and slices, including negative steps and positions that do not exist", "why_tests_cant": "the index arithmetic mixes signed and unsigned integers and wraps; only particular signs, steps and lengths expose a wrong position or an unchecked one", "anchors": ["python_binding/networks.cpp:common_core", "include/MPT.h:vector_lift"]}
{"id": "C102", "title": "Blocks and methods of block tensors in Python", "statement": "From Python, assigning a block succeeds exactly for an allowed block index and a tensor of that block's sizes, and then sets that block only; inverse_cvals_ inverts the tensor's charges in place; tensordot with a number contracts that many last dimensions of the first with the first ones of the second.", "quantifier": "all conserving tensors, block indices, block values of any rank, numbers of contracted dimensions", "why_tests_cant": "a missing check on the rank of the value, or a method bound to the wrong overload, passes every test that uses fitting values or the result only", "anchors": ["python_binding/quantt.cpp:blocks", "python_binding/quantt.cpp:inverse_cvals_", "python_binding/quantt.cpp:tensordot"]}
{"id": "C103", "title": "The block DMRG stays in its sector", "statement": "The ground state search never leaves the sector of conserved quantities it is asked for: started from a conserved quantity, every configuration with an amplitude other than zero in the state it returns, or shows to the logger after an iteration, has that total charge; started from a state, it has the charge of that state.", "quantifier": "all conserving Hamiltonians, starting states, random numbers, cutoffs, limits of the bond, numbers of iterations, abelian groups of charges", "why_tests_cant": "a state of a neighbouring sector can have lower energy, so a leak looks like better convergence; whether a truncation or contraction leaks depends on the blocks met during the run", "anchors": ["sources/dmrg.cpp:dmrg", "sources/MPT.cpp:random_bMPS", "sources/dmrg.cpp:two_sites_update"]}
{"id": "C104", "title": "Compressing an operator chain keeps the operator and removes what is redundant", "statement": "coalesce() of a chain of block operator tensors returns a chain of as many tensors, with the same physical dimensions, ends and selection rules, whose entries between any two configurations are those of the chain it was given. No bond grows, no bond is larger than what the tensor to its left can need, and afterwards the operators made by the tensors left of a bond, one for each element of the bond, are linearly independent.", "quantifier": "all lengths, abelian groups of charges, section structures, block patterns, entries of the default element type (others: C110), every dense SVD that satisfies its laws", "why_tests_cant": "each step changes the two tensors next to a bond, so that the operator is kept only if all the steps fit together; which values are kept depends on the blocks of the tensors reached", "anchors": ["sources/MPT.cpp:bMPO::coalesce", "sources/btensor_linalg.cpp:svd"]}
{"id": "C105", "title": "The loggers of the library record the run they watch", "statement": "dmrg_log_sweeptime, given to any DMRG run, has afterwards two lists of maximum_iterations places and never writes outside them: for each sweep made, the time between the readings of the clock before and after it and the larger bond of the middle site of the state after it, and zeros in the other places, so that the times add up to the duration of all sweeps; it and dmrg_log_simple hold the number given at the end and the larger bond of the middle site of the final state. What they contained before the run makes no difference.", "quantifier": "all runs of any number of sweeps and sites, all clocks, all previous contents of the logger", "why_tests_cant": "the number of sweeps is not known beforehand and a write past the end of the lists is undefined behaviour", "anchors": ["include/dmrg_logger.h:dmrg_log_simple", "include/dmrg_logger.h:dmrg_log_sweeptime", "sources/dmrg.cpp:dmrg_impl"]}
{"id": "C106", "title": "A contraction into a tensor of the caller is stored there", "statement": "tensorgdot_(output,A,B,...) leaves beta*output + alpha*(A.B) in output, and tensorgdot_out(output,C,A,B,...) leaves beta*C + alpha*(A.B) there, whatever the memory layout of output; no other memory changes. The version that takes a number of dimensions contracts the last ones of A with the first ones of B.", "quantifier": "all outputs without internal overlap with any strides and offset, all inputs, contracted dimensions and scale factors", "why_tests_cant": "whether the result arrives depends on the strides of the output tensor, and the unit tests only use freshly allocated outputs of rank two", "anchors": ["sources/tensorgdot.cpp:tensorgdot_", "sources/tensorgdot.cpp:tensorgdot_out"]}
{"id": "C107", "title": "The operators of the sites with conserved quantities are the dense operators", "statement": "pauli(shape) returns, in the documented order, the lowering operator, Sz and the identity as block tensors of the given shape; fermions(shape) returns the two annihilators, the phase operator and the identity. Each has the same entries as the dense operator, the charge it changes as its selection rule, and stores only blocks that obey it. When the charges of the states cannot give an operator one rule, or when the shape already stores blocks, the call throws logic_error.", "quantifier": "all groups of charges and all ways to assign them to the states of a site, including degenerate ones that share a section", "why_tests_cant": "the assignment of charges is free; a wrong rule or a dropped block shows only for particular sections", "anchors": ["sources/operators.cpp:pauli", "sources/operators.cpp:fermions", "sources/btensor.cpp:find_selection_rule"]}
{"id": "C108", "title": "A modifying call that throws leaves the tensor as it was", "statement": "If a.add_(b), a.mul_(b), a.div_(b), a.pow_(b) or a.basic_index_put_(dims,b) throws, the shape, the selection rule and the blocks of a are what they were before the call, so that the caller can catch the exception and go on with a.", "quantifier": "all tensors a and b, all scalars, all slices, whatever block the exception comes from", "why_tests_cant": "the exception can come from any block, after any number of blocks has been changed; tests check that it is thrown, not what it leaves behind", "anchors": ["sources/btensor.cpp:btensor::add_", "sources/btensor.cpp:btensor::mul_", "sources/btensor.cpp:btensor::broadcast_operation_", "sources/btensor.cpp:btensor::basic_index_put_", "sources/btensor.cpp:btensor::impl_basic_index_put_", "include/blockTensor/flat_map.h:flat_map::insert"]}
{"id": "C109", "title": "Shifting the charges of a tensor by one of its own charges", "statement": "Shifting the charges of a dimension by a charge that the tensor itself handed out, the charge of one of its sections or elements or its selection rule, has the effect of the shift by a copy of that charge; in place as out of place.", "quantifier": "all groups of charges, all tensors, all sections and dimensions", "why_tests_cant": "aliasing between an argument and the object: only the sections behind the referred one, in the shifted dimension, show it", "anchors": ["sources/btensor.cpp:btensor::cval_shift_", "sources/btensor.cpp:btensor::cval_shift", "sources/btensor.cpp:btensor::non_conserving_cval_shift_", "sources/btensor.cpp:btensor::shift_impl", "sources/btensor.cpp:btensor::section_conserved_qtt", "sources/btensor.cpp:btensor::element_conserved_qtt"]}
{"id": "C110", "title": "Factorising a block tensor keeps its element type", "statement": "For (U, d, V) = svd(tensor, split), U d V^H is the tensor, for real and for complex tensors and whatever type is torch's default; the truncated form returns the best approximation; (d, U) = eigh(tensor) of a hermitian tensor gives back the tensor; and the factors can be contracted with tensors of the type of the tensor that was factorised.", "quantifier": "all conserving tensors, all element types, both default types, all splits and truncation parameters, every dense factorisation that satisfies its laws", "why_tests_cant": "the tests only factorise real tensors of the default type; whether the imaginary part survives depends on the type of an intermediate matrix", "anchors": ["sources/btensor_linalg.cpp:compact_dense_single", "sources/btensor_linalg.cpp:svd", "sources/btensor_linalg.cpp:eigh", "sources/btensor_linalg.cpp:truncate_impl", "sources/btensor_linalg.cpp:epsilon", "sources/MPT.cpp:bMPS::move_oc"]}
{"id": "C111", "title": "The declared element type of a block tensor holds its entries", "statement": "The element type a block tensor declares is that of its blocks, so that to_dense() gives every entry of the tensor, after any history of from_basic_tensor, products and quotients with numbers, sums and contractions, also of tensors of different types.", "quantifier": "all histories of calls, all element types of the tensors and numbers, all shapes and blocks", "why_tests_cant": "the declared type is computed apart from the blocks, and only to_dense() converts to it: a test on values that fit the declared type sees nothing", "anchors": ["sources/btensor.cpp:btensor::to_dense", "sources/btensor.cpp:from_basic_tensor", "sources/btensor.cpp:btensor::mul", "sources/btensor.cpp:btensor::div", "sources/btensor.cpp:btensor::add", "sources/btensor.cpp:btensor::tensordot"]}
{"id": "C112", "title": "The ground state search on the library's own Hamiltonians", "statement": "dmrg with Heisenberg(J, L) or Hubbard(U, mu, L) and a normalised state in canonical form returns a normalised state of the chain and its energy: the expectation value of the textbook Hamiltonian of the model in that state. It is at most the energy of the initial state and at least the lowest eigenvalue of the Hamiltonian; for Heisenberg at least (L - 1) min(-J/4, 3J/4). Given no state it draws one, and the energies it logs lie in the spectrum and are those of the states logged up to the width of the spectrum, at most (L - 1) |J| for Heisenberg, times the cutoff.", "quantifier": "all lengths of two sites or more, all couplings, all initial states, all exact factorisations, all limits and criteria of the search", "why_tests_cant": "the tests run one length with one coupling and compare with a number known for it", "anchors": ["sources/dmrg.cpp:dmrg", "sources/dmrg.cpp:details::dmrg_impl", "sources/models.cpp:Heisenberg", "sources/models.cpp:Hubbard", "sources/models.cpp:details::Heisenberg_impl", "sources/models.cpp:details::Hubbard_impl", "sources/MPT.cpp:random_MPS"]}
{"id": "C113", "title": "Eigenvalue decomposition of a dense hermitian tensor", "statement": "eigh(A, split) of a tensor that is hermitian as a matrix from its last dimensions to its first split ones gives the eigenvalues in ascending order and orthonormal eigenvectors with the first dimensions of A: the product is A and every column is an eigenvector. A matrix that is not square or not hermitian is refused. With a tolerance, the dropped eigenvalues weigh no more than the tolerance and none is kept that could be dropped; never fewer than min_size nor more than max_size values are kept.", "quantifier": "all tensors of all ranks and sizes, all splits, tolerances and limits, all exact routines for the matrix problem", "why_tests_cant": "the test decomposes one random matrix", "anchors": ["sources/LinearAlgebra.cpp:eigh", "sources/LinearAlgebra.cpp:truncate", "sources/LinearAlgebra.cpp:compute_last_index", "include/LinearAlgebra.h:eigh"]}
{"id": "C114", "title": "Charges in variables behave as plain values", "statement": "Any program that creates, copies, moves, assigns, exchanges, adds, inverts and neutralises any_quantity variables leaves in every variable the charge it would hold if charges were plain values of the group they belong to, whatever variables are named twice. A statement that brings together charges of different groups throws bad_cast and changes no variable; there is no other exception. A variable that was moved from can be given a new value.", "quantifier": "all programs of all lengths over any number of variables, all charges of all admissible groups", "why_tests_cant": "unit tests run a handful of statements on three variables", "anchors": ["include/Conserved/Composite/cquantity.h:any_quantity", "include/Conserved/Composite/cquantity.h:operator*", "include/Conserved/Composite/quantity_impl.h:quantity"]}
{"id": "C115", "title": "The ground state search with conserved charges on the library's own Hamiltonians", "statement": "dmrg with Heisenberg or Hubbard made for a physical index with conserved charges, from a block state of norm one, canonical around its center and of charge q: the Hamiltonian commutes with the charge; every state logged and the state returned have norm one and charge q; the energy returned is the expectation value of the textbook Hamiltonian in the state returned, at most that of the initial state, and at least the lowest eigenvalue among states of charge q. With truncation the energies logged lie in the spectrum and are those of the states logged up to the cutoff times its width.", "quantifier": "all lengths of two sites or more, all couplings, all charges of the sites compatible with the Hamiltonian, all charges of the state, all block states, all exact factorisations, all limits and criteria of the search", "why_tests_cant": "the tests run one length, one coupling and one charge, and compare with a number known for it", "anchors": ["sources/dmrg.cpp:dmrg", "sources/dmrg.cpp:details::dmrg_impl", "sources/models.cpp:Heisenberg", "sources/models.cpp:Hubbard", "sources/models.cpp:details::Heisenberg_impl", "sources/models.cpp:details::Hubbard_impl", "sources/MPT.cpp:bMPO::coalesce"]}
{"id": "C116", "title": "The block DMRG given only a Hamiltonian and a charge", "statement": "dmrg(hamiltonian, charge, options) on block tensors draws a random chain that is in general neither normalised nor canonical. It still returns; every state logged and the state returned have norm one and the requested charge, are canonical around one of the first two sites apart from unused elements of the bonds, and have the dimensions of the Hamiltonian's sites. Except for the first iteration on three sites, the energy logged lies within the spectrum and is that of the state up to the width of the spectrum times the cutoff. With Heisenberg and Hubbard the energy of the states is at least the lowest of that charge.", "quantifier": "all hermitian block Hamiltonians with ends of one element, all charges, all random numbers, all exact factorisations, all cutoffs, limits and numbers of iterations", "why_tests_cant": "the tests run one Hamiltonian, one charge and one seed, and look at the energy only", "anchors": ["sources/dmrg.cpp:dmrg", "sources/dmrg.cpp:details::dmrg_impl", "sources/dmrg.cpp:details::dmrg_2sites_update", "sources/MPT.cpp:random_bMPS", "sources/models.cpp:Heisenberg", "sources/models.cpp:Hubbard"]}
{"id": "C117", "title": "The ground state search stops when the energy settles", "statement": "A DMRG run stops by itself: whatever limit is put on the number of iterations, it makes no more than a number that follows from the criterion, the starting energy and the lower bound of the spectrum, and if the limit is above that number, the last two energies differ by no more than the criterion (the dense search compares the change with the criterion, the block search the change divided by the energy). With truncation the same holds if what the truncations of one sweep may lose is not above the criterion. It does not stop because of anything else.", "quantifier": "all hermitian Hamiltonians, all starting states, all exact factorisations, all criteria above zero, all limits of the number of iterations", "why_tests_cant": "the tests run a few Hamiltonians with the default criterion and look at the final energy; that a loop always ends early enough cannot be sampled", "anchors": ["sources/dmrg.cpp:dmrg", "sources/dmrg.cpp:details::dmrg_impl", "sources/dmrg.cpp:details::sweep", "include/dmrg_options.h:dmrg_options"]}
{"id": "C118", "title": "Converting the element type, and the types of what is given to DMRG", "statement": "to(type) on a block tensor or a chain converts every entry and keeps shape, rule and stored blocks; the result declares the new type and stores every block in it, and the entries are kept if the type holds them, so that converting to a larger type and back changes nothing. to() with options that have no type keeps the type. Assigning to dtype in Python converts the tensor. dmrg gives back the Hamiltonian as it was, whether it returns or throws, and a state of the type it was given.", "quantifier": "all block tensors and chains, all element types, all runs of DMRG", "why_tests_cant": "tests use one element type throughout; that nothing is lost has to hold for every mixture of types and every run, also one that throws", "anchors": ["include/blockTensor/btensor.h:btensor::to", "include/MPT.h:vector_lift::to", "include/MPT.h:vector_lift::to_", "sources/dmrg.cpp:dmrg_gradient_guard", "sources/dmrg.cpp:dmrg", "python_binding/quantt.cpp:dtype"]}
{"id": "C119", "title": "Loggers written in Python hear what their documentation says", "statement": "A class derived in Python from quantit.algorithm.dmrg_logger and given to dmrg has its methods called as the documentation says: init before the first sweep, it_log_all after every sweep, end_log_all once at the end, and, where it does not define it_log_all or end_log_all, its log_all, or else its log_step, log_energy and log_bond_dims. The run returns. dmrg_logger itself, and no logger at all, do nothing. A class derived in C++ from dmrg_default_logger is called in the same way.", "quantifier": "every set of methods the class may define; every DMRG run, dense or with conserved quantities, of any number of sweeps; every depth of the stack.", "why_tests_cant": "a test with one class that defines it_log_all and end_log_all passes; the classes for which the run never returns kill the test, and the number of calls depends on the number of sweeps.", "anchors": ["python_binding/algorithm.cpp: py_default_logger, register_loggers, init_algorithms", "include/dmrg_logger.h: dmrg_logger, dmrg_default_logger", "sources/dmrg.cpp: dmrg"]}
{"id": "C120", "title": "Operators between tensors and numbers mean the same on both sides, in C++ and in Python", "statement": "t op x and x op t, for a block tensor t, a number x and op one of +, -, *, / and the six comparisons, are the tensor of the shape of t whose stored elements are those of t combined with x in that order, in C++ and in Python; in Python the operators between two tensors do what they do in C++, and an operand that is neither raises TypeError.", "quantifier": "every conserving tensor, every number, every operator, both orders of the operands.", "why_tests_cant": "the order of the operands and the kinds of operands multiply; a test of one operator and one order says nothing of the others, and which method the interpreter calls depends on both classes.", "anchors": ["include/blockTensor/btensor.h: operator+, operator-, operator*, operator/, greater, less, le, ge, eq, not_equal and the comparison operators", "python_binding/quantt.cpp: class btensor, __mul__, __div__, __gt__ ...", "python_binding/utilities.h: Cast_Scalars, wrap_scalar"]}
{"id": "C121", "title": "Writing into one tensor leaves the others as they are", "statement": "An assignment to an element of the tensor of one site of a Hamiltonian made by the library changes that element and no element of the other sites; a block tensor made from a dense tensor keeps its values when the dense tensor is changed afterwards.", "quantifier": "every length, every site, every element and value, every parameter of the Hamiltonian, every dense tensor and block structure, every later state of memory.", "why_tests_cant": "sharing of memory shows only when something is written later, and then in another tensor than the one written to; tests of values never see it.", "anchors": ["sources/models.cpp: Heisenberg, Hubbard", "sources/btensor.cpp: from_basic_impl, from_basic_tensor, from_basic_tensor_like"]}
{"id": "C122", "title": "Eigenvectors of an operator with several indices", "statement": "eigh(A, split) of a hermitian block operator returns eigenvalues without charges and eigenvectors with the leading dimensions of A and one more; both obey their conservation rules, the eigenvectors are orthonormal, and A[e, e'] is the sum over k of u[e, k] d[k] conj(u[e', k]). With a tolerance or limits the largest eigenvalues are kept.", "quantifier": "every group of charges, number of leading dimensions, section structure and entries; every dense solver that decomposes hermitian matrices; every tolerance and limits.", "why_tests_cant": "the result depends on grouping, sorting and separating the dimensions for all section structures together with the order of the charges; the tests use one matrix.", "anchors": ["sources/btensor_linalg.cpp: eigh, truncate, truncate_impl, compact_dense", "sources/btensor.cpp: reshape, reshape_as, shape_from"]}
{"id": "C123", "title": "The couplings of the model Hamiltonians may be given in any element type", "statement": "Heisenberg(J, L) and Hubbard(U, mu, L) give the Hamiltonian of the numbers passed to them, whether these are integers, real or complex numbers, tensors or Python numbers.", "quantifier": "every length of at least two; every integer of every width, every real and complex number, and for Hubbard every combination of the two types.", "why_tests_cant": "the operators are 8-bit integers that a coupling without dimensions does not widen, so whether the entries are right depends on the value and the type of both couplings; the tests use small ones.", "anchors": ["sources/models.cpp: Heisenberg, Heisenberg_impl, Hubbard, Hubbard_impl", "sources/operators.cpp: pauli, fermions", "python_binding/operators.cpp: init_operators"]}
{"id": "C124", "title": "The bonds of a DMRG run obey the limits in its options", "statement": "Moving the center of a chain makes no bond larger. With dmrg_options whose minimum_bond is not above maximum_bond, in a dense DMRG run no bond of the state returned, nor of a state passed to the logger, is larger than maximum_bond. When minimum_bond is above maximum_bond the minimum wins, which is what Python's dmrg_options(max_bond=m) gives for every m below 4. In the block search an update keeps within the larger limit when no two values at the bond coincide; values that coincide with the last one kept are kept too, so that the limit can be exceeded.", "quantifier": "every chain, Hamiltonian, cutoff, criterion, number of sweeps and every pair of limits, with a cutoff below one if the minimum is 0; every update regular as in C73.", "why_tests_cant": "the limits act inside every truncation of every sweep and the last move of the center comes after all of them; the tests only use limits far from the bonds that occur.", "anchors": ["include/dmrg_options.h: dmrg_options", "python_binding/algorithm.cpp: dmrg_options", "sources/dmrg.cpp: dmrg, dmrg_impl, two_sites_update", "sources/LinearAlgebra.cpp: compute_last_index", "sources/MPT.cpp: MPS::move_oc"]}
{"id": "C125", "title": "Chains that share tensors: who sees a change", "statement": "In a program over MPS variables, constructions, copies, moves, assignments, swaps, the modifiers of the vector, move_oc, conversions of the type and assignments x[p] = y[q] change no variable but those they name, whatever tensors the variables share. An operation in place on the tensor of one site (x[p].mul_(2), x[p].index_put_(...)) changes that site and no other site of any chain; this holds in programs that neither copy or convert a chain into another, nor copy a site, nor build a chain of several sites from one tensor.", "quantifier": "every program of these statements, every svd and every operation in place that keeps the sizes.", "why_tests_cant": "which sites share a tensor depends on the whole history of the program; the tests look at one chain at a time.", "anchors": ["include/MPT.h: vector_lift, MPS", "sources/MPT.cpp: MPS::move_oc"]}
{"id": "C126", "title": "A number is added to a block tensor whatever the types of both", "statement": "full(shape, rule, c, opt) and full_like(t, c, opt) give c at every entry that the selection rule allows, in the type of the options, or of t if they name none. t.add(c, alpha), t.add_(c, alpha), t.sub(c, alpha) and t.sub_(c, alpha) change every allowed entry by c*alpha and no other, for numbers of every type, as products with numbers do.", "quantifier": "every block tensor, number, factor and element type (integer, real, complex; short and long).", "why_tests_cant": "the conversion depends on the types of the tensor and of the number and on its value; tests see single pairs.", "anchors": ["sources/btensor.cpp: full, full_like, factory_wrap, Scalar_mul, btensor::add(Scalar, Scalar), btensor::add_(Scalar, Scalar)", "include/blockTensor/btensor.h: btensor::sub, btensor::subtract, sparse_zeros_like"]}
{"id": "C127", "title": "Products and quotients in place with a number", "statement": "t.mul_(c) multiplies every entry by c if the type of the number is not above that of t, in the order integer, real, complex; t.div_(c) divides every entry by c if the type of t holds the quotients. Otherwise they throw and leave t as it was. The element type of t does not change.", "quantifier": "every block tensor, number that is not zero for quotients, and element type (integer, real, complex; short and long).", "why_tests_cant": "which conversions throw depends on the types of the number, of the tensor and of each of its blocks; tests see single pairs.", "anchors": ["sources/btensor.cpp: btensor::mul_(Scalar), btensor::div_(Scalar)"]}
{"id": "C128", "title": "Conversions between trains, states and operators", "statement": "In a program that turns MPT variables into MPS and MPO and back, by copy or by std::move, each MPS is empty or a linked chain of rank three tensors with its orthogonality center inside and each MPO empty or a linked chain of rank four, however the program ends. A state or operator turned into a train and back is what it was; a copy changes nothing but its target, a move also empties its source. When a conversion throws, every variable is as it was before that statement. The same for block tensors.", "quantifier": "every program of conversions, constructions from iterators and changes of the trains, with any number of variables and any tensors.", "why_tests_cant": "what a variable holds depends on the whole program; no test moves a train or looks at it after an exception.", "anchors": ["include/MPT.h: MPS(const MPT&), MPS(MPT&&), MPO(const MPT&), MPO(MPT&&), MPS::operator MPT, MPO::operator MPT, MPS(const_iterator, const_iterator)", "include/MPT.h: bMPS, bMPO", "include/property.h: property"]}
{"id": "C129", "title": "The decomposition that is asked for is the one that is computed", "statement": "svd(t) and eigh(t) of a block tensor, with the flags some, compute_uv and upper if they are given, decompose the matrices made of the last two dimensions with these flags; svd(t, split) and eigh(t, split) decompose the tensor seen as a matrix whose rows are the first split dimensions; with a tolerance, limits and a power they drop the smallest values accordingly, the power being 2 for singular values and 1 for eigenvalues unless it is given, at least one value kept and no upper limit unless limits are given. The same in Python, with arguments by position or by name; a call that fits no function raises TypeError.", "quantifier": "every tensor, every decomposition of a matrix, every value of the arguments, in C++ of the types bool, BOOL, int, size_t, double and Scalar, in Python of any numbers.", "why_tests_cant": "which of the seven functions named svd runs depends on the types of the arguments; tests call the functions with a few literals only, and none calls them with flags or from Python.", "anchors": ["include/blockTensor/LinearAlgebra.h: svd, eigh, BOOL", "sources/btensor_linalg.cpp: svd, eigh", "python_binding/linalg.cpp: init_linalg_qtt", "python_binding/utilities.h: wrap_scalar, Cast_Scalars"]}
{"id": "C130", "title": "truncate in Python stores the truncated factors in the tensors it is given", "statement": "quantit.linalg.truncate(U, d, V, max, min, tol, pow) leaves in the three objects the truncated factors: d holds the values that are kept, the product of the objects is the sum of the terms of these values, and no other object changes. Applied to the result of svd(A, split) it gives what svd(A, split, tol, min_size, max_size, pow) returns. truncate(e, S, ...) does the same for an eigenvalue decomposition. A call that raises an exception leaves its arguments as they were.", "quantifier": "every set of objects, every decomposition stored in them, every limit, tolerance and power, with one object given once or twice.", "why_tests_cant": "no test calls truncate from Python; which objects are lost depends on whether an exception is raised after they have been moved from, and on whether two arguments are the same object.", "anchors": ["python_binding/linalg.cpp: truncate", "sources/btensor_linalg.cpp: truncate, truncate_impl", "include/blockTensor/btensor.h: btensor(btensor&&)"]}
{"id": "C131", "title": "Methods in place act on the tensor they are called on, also in chains", "statement": "In Python a method of a block tensor whose name ends with an underscore (mul_, div_, sqrt_, abs_, pow_, permute_, transpose_, cval_shift_, t_) changes the tensor and returns it: t.f_(...).g_(...) leaves t as the statements t.f_(...) and t.g_(...) do. A method that changes every element changes the elements of the tensor and nothing else.", "quantifier": "every tensor, every list of such calls, every other tensor there is, with or without shared blocks.", "why_tests_cant": "a method that returns a copy passes every test of one call; which later calls of a chain are lost depends on the methods and on what the copy shares with the tensor.", "anchors": ["python_binding/quantt.cpp: t_, pow_, sqrt_, abs_, div_, mul_, permute_, transpose_, cval_shift_", "sources/btensor.cpp: mul_, permute_, cval_shift_"]}
