# Regenerates properties.jsonl. One entry per property: id, title, statement, quantifier, why_tests_cant, anchors.
import json, os
P = []
def p(id, title, statement, quantifier, why, anchors):
    P.append(dict(id=id, title=title, statement=statement, quantifier=quantifier, why_tests_cant=why, anchors=anchors))

Q="include/Conserved/quantity.h"; QI="include/Conserved/Composite/quantity_impl.h"; CQ="include/Conserved/Composite/cquantity.h"
QV="include/Conserved/Composite/quantity_vector_impl.h"; FM="include/blockTensor/flat_map.h"; BT="sources/btensor.cpp"; BH="include/blockTensor/btensor.h"
BL="sources/btensor_linalg.cpp"; LA="sources/LinearAlgebra.cpp"; MP="sources/MPT.cpp"; MH="include/MPT.h"; DM="sources/dmrg.cpp"; DL="include/dmrg_logger.h"
MO="sources/models.cpp"; OP="sources/operators.cpp"; DI="sources/dimension_manip.cpp"; TG="sources/tensorgdot.cpp"

p("C01","Cyclic conserved quantities form an abelian group",
  "For every cycle length N the class accepts, composing two C<N> values (op, +, *) always yields a stored value below N, the composition is commutative and associative, C<N>() is neutral, and x composed with x.inverse() is neutral.",
  "all cycle lengths N in the documented range and all pairs/triples of values",
  "N is a compile-time parameter with 65535 choices and the operation has N^2 inputs per N; the 16 bit wrap-around only shows for large N.",
  [Q+":C::op",Q+":C::inverse_",Q+":C::C()"])
p("C02","Building a cyclic quantity from a signed integer reduces it modulo N",
  "C<N>(v) holds the representative of v modulo N in [0,N) for every signed 16 bit v, so equal residues compare equal and negative literals denote inverses.",
  "all N and all 16 bit signed v",
  "The branch-free reduction has a special case; only particular multiples of N misbehave, for each N.",
  [Q+":C::C(int16_t)"])
p("C03","Integer charges are exact inside the representable window",
  "Composing and inverting Z charges agrees with integer addition and negation whenever the exact result fits in 16 bits, and the stored arithmetic is always an abelian group (wrap-around) so no reordering of a product can change a result.",
  "all pairs/triples/sequences of 16 bit charges",
  "2^32 operand pairs and unbounded sequences of compositions.",
  [Q+":Z::op",Q+":Z::inverse_"])
p("C04","Composite quantities compose, invert and compare component by component",
  "quantity<G1,...,Gk> and the type-erased any_quantity over it form an abelian group componentwise; == holds iff all components are equal; < is a strict total order (lexicographic) compatible with ==; mixing two different composite types throws bad_cast instead of producing a value.",
  "all lists of component groups with cycles no longer than 32768 (longer ones: C01), all values",
  "Arbitrary numbers and kinds of components; strict-weak-order laws quantify over triples.",
  [QI+":quantity::op",QI+":quantity::operator==",QI+":quantity::operator<",CQ+":any_quantity"])
p("C05","Charge distance is zero exactly for equal charges",
  "distance2(a,b)=0 iff a==b, it is symmetric and never negative, for simple and composite quantities.",
  "all pairs of quantities of one type",
  "Quantifies over all pairs of a user-chosen composite type.",
  [Q+":distance2_impl",QI+":distance2"])
p("C06","Assigning a type-erased quantity gives an equal independent value",
  "After a = b on any_quantity, a == b, whatever conserved type a held before (the documentation says assignment may change the held type).",
  "all pairs of held types and values",
  "The pairs of types form an open-ended set; tests use one type at a time.",
  [CQ+":any_quantity::operator=","include/Conserved/Composite/quantity_impl.h:quantity::operator="])
p("C07","Permuting a packed list of quantities moves whole sections",
  "permute(permutation, section_counts) on a quantity vector yields the concatenation of the sections in permuted order, each section internally unchanged; the multiset of charges is preserved.",
  "all vectors, all section counts, all permutations",
  "Unbounded lengths and factorially many permutations.",
  [QV+":quantity_vector::permute"])
p("C08","A flat_map built and modified through its methods stays sorted and duplicate free",
  "After any finite sequence of construction from an unsorted range, insert, emplace, operator[], insert_or_assign, erase(position), merge and clear calls, iteration visits strictly increasing keys.",
  "all finite histories of container operations with arbitrary keys and values",
  "Histories are unbounded; every later lookup is a binary search that silently relies on this.",
  [FM+":flat_map::insert",FM+":flat_map::merge",FM+":flat_map::filter_unique"])
p("C09","flat_map behaves like a mathematical finite map",
  "at, find, contains and operator[] return the value last associated with the key by the history (insert/emplace never overwrite, insert_or_assign does, operator[] inserts a default), and at throws out_of_range exactly for absent keys.",
  "all histories and all query keys",
  "Refinement over unbounded histories.",
  [FM+":flat_map::at",FM+":flat_map::operator[]",FM+":flat_map::find"])
p("C10","Erasing a key removes that key only",
  "erase(key) removes the entry with that key if present and returns 1; if the key is absent it returns 0 and leaves the map unchanged.",
  "all maps and keys",
  "Absent-key behaviour depends on the relative order of the key with every stored key.",
  [FM+":flat_map::erase(const key_type&)"])
p("C11","Merging maps combines common keys and transforms only the incoming ones",
  "merge(source, collision, nocollision) yields the sorted union of the keys; values of common keys are collision(own, incoming); values of keys only in source are nocollision(incoming); values of keys only in the receiver are untouched.",
  "all pairs of maps, all collision and no-collision functions",
  "The in-place backward merge interleaves runs in unboundedly many patterns.",
  [FM+":flat_map::insert(const_iterator,const_iterator,Collision,NoCollision)",FM+":flat_map::merge"])
p("C12","A hinted insertion has the same effect as an unhinted one",
  "insert(hint, value) and emplace(hint, ...) give the same container contents as the call without a hint, for every position used as a hint.",
  "all maps, keys and hint positions",
  "Correct hints are the usual test; wrong hints are allowed by the interface and number size+1 per map.",
  [FM+":flat_map::use_hint",FM+":flat_map::emplace(const_iterator)"])
p("C13","Every stored block of a block tensor satisfies the selection rule",
  "For every block tensor reachable through constructors, factories, block insertion, permute, reshape, tensordot, sums with equal shapes, scalar multiplication, conjugation, charge inversion and index views, each stored block index lies within the sections, has the block shape given by the section sizes, and its charges compose to the tensor's selection rule.",
  "all finite histories of operations over arbitrary shapes, ranks, groups",
  "Conservation is a global invariant over unbounded histories and ranks.",
  [BT+":btensor::check_tensor",BT+":btensor::block_conservation_rule_test",BT+":btensor::permute",BT+":btensor::tensordot",BT+":btensor::reshape"])
p("C14","The block counter visits every block index exactly once",
  "The index increment used by all factories enumerates every index tuple of the section grid once and then returns to the all-zero tuple, in rank and section counts of any size.",
  "all ranks and section counts (each at least one)",
  "Grids of every rank and size.",
  [BT+":block_increment",BT+":factory_wrap"])
p("C15","Factories create exactly the allowed blocks",
  "zeros/ones/full/rand(..._like) create one block for every block index that satisfies the selection rule and none for any other index; the sparse variants create none.",
  "all shapes, groups, selection rules",
  "All shapes.",
  [BT+":factory_wrap",BT+":btensor::block_conservation_rule_test",BT+":btensor_compute_max_size"])
p("C16","Block access never creates a forbidden block",
  "block(index) returns a reference to the block at index, creating an empty one only if index satisfies the selection rule, and throws invalid_argument otherwise, leaving the tensor unchanged.",
  "all tensors and index tuples",
  "All shapes and indices.",
  [BT+":btensor::block",BT+":btensor::block_at"])
p("C17","Element positions and (section, offset) pairs are in bijection",
  "Decomposing an element position along a dimension gives a section and an offset within that section's size such that the sum of the preceding section sizes plus the offset is the position; element_conserved_qtt returns the charge of that section, and throws invalid_argument for a position beyond the dimension.",
  "all section size lists and positions",
  "Unbounded section lists.",
  [BT+":btensor::element_index_decompose",BT+":btensor::element_conserved_qtt",BT+":btensor::to_block_basis"])
p("C18","Converting to a dense tensor puts every element where its position says",
  "to_dense() has the dimension sizes reported by sizes(), and its entry at any multi-index is the block entry at the decomposed position, or zero when the block is not stored.",
  "all well-formed tensors and element positions",
  "All shapes, block patterns and positions.",
  [BT+":btensor::to_dense",BT+":full_slice",BT+":btensor::sizes"])
p("C19","Dense to block conversion round-trips on conserving data",
  "from_basic_tensor with cutoff 0 followed by to_dense returns the dense input whenever the input vanishes outside the allowed blocks; in general the allowed part is kept exactly and the rest is dropped; stored blocks are exactly the allowed blocks whose norm exceeds the cutoff. A dense tensor of another number of dimensions is rejected.",
  "all shapes, dense inputs and cutoffs",
  "All inputs.",
  [BT+":from_basic_impl",BT+":btensor::to_dense"])
p("C20","Permuting dimensions permutes dense content",
  "permute(p) of a tensor has, at any multi-index, the entry of the original at the correspondingly permuted multi-index; dimension sizes, section sizes and charges are permuted alike; the selection rule is unchanged; permuting by the inverse restores the tensor; a p that is not a permutation is rejected. permute_ and transpose_ do the same in place and leave the tensor unchanged when they throw; swap exchanges two tensors.",
  "all tensors, all permutations including negative dimension aliases",
  "Factorially many permutations for every rank.",
  [BT+":btensor::permute",BT+":btensor::transpose",BT+":btensor::permute_",BT+":btensor::transpose_",BT+":btensor::swap"])
p("C21","Adding tensors adds dense content",
  "add(a,b,alpha), a.add_, operator+ and operator- give a tensor whose entry everywhere is a + alpha*b, whatever blocks are stored on either side.",
  "all same-shape pairs, all alpha, all stored-block patterns",
  "Depends on which blocks are present on each side; exponentially many patterns.",
  [BT+":btensor::add_",BT+":btensor::add",BT+":btensor::sub"])
p("C22","Addition rejects tensors of different shape",
  "add and friends throw unless both tensors have the same sections per dimension, section sizes, charges and selection rule.",
  "all pairs of tensors",
  "All shape pairs.",
  [BT+":add_tensor_check",BT+":btensor::test_same_shape"])
p("C23","Tensor contraction of block tensors equals dense contraction",
  "tensordot(a,b,dims_a,dims_b) has, at any multi-index, the entry of the dense contraction of the two operands.",
  "all compatible operand pairs, contraction lists, stored-block patterns",
  "The merge algorithm walks two block lists of any length in any interleaving.",
  [BT+":btensor::tensordot",BT+":btensor::compute_tdot_shape"])
p("C24","Contraction combines selection rules and keeps the outer charges",
  "The result of tensordot has selection rule rule(a) composed with rule(b), outer sections and charges those of the uncontracted dimensions in order, and contains no forbidden block; it throws when the contracted charges are not mutual inverses.",
  "all operand pairs and contraction lists",
  "All shapes.",
  [BT+":btensor::compute_tdot_shape",BT+":btensor::check_product_compat"])
p("C25","Contraction always terminates",
  "tensordot returns or throws for every pair of operands and every contraction list, including an empty list (outer product).",
  "all operand pairs including rank zero",
  "Termination is not observable by finite testing.",
  [BT+":btensor::tensordot",BT+":next_index"])
p("C26","Grouping dimensions by reshape is reversible and keeps every element",
  "reshape(groups) fuses consecutive dimensions: fused section index is the row-major index of the fused sections, charges compose, sizes multiply; reshaping back with reshape_as(original) restores the tensor exactly.",
  "all tensors and groupings",
  "All shapes.",
  [BT+":btensor::reshape",BT+":btensor::reshape_as",BT+":reshape_block_index"])
p("C27","Inverting charges is an involution that keeps content and conservation",
  "inverse_cvals_ and conj invert all charges and the selection rule, keep the stored blocks admissible, and applying them twice restores the tensor.",
  "all tensors",
  "All shapes and groups.",
  [BT+":btensor::inverse_cvals_",BT+":btensor::conj"])
p("C28","Shifting charges along a dimension keeps the tensor conserving",
  "cval_shift(shift, dim) leaves the content of a conserving tensor unchanged and conserving: stored blocks satisfy the new rule.",
  "all tensors, shifts, dimensions",
  "Holds for neutral or self-inverse shifts even if wrong in general.",
  [BT+":btensor::cval_shift_"])
p("C29","Changing the rule or charges without conservation is refused on non-empty tensors",
  "set_selection_rule_, shift_selection_rule_, neutral_shape_ and non_conserving_cval_shift_ throw logic_error and change nothing if the tensor stores a block.",
  "all tensors",
  "All shapes.",
  [BT+":btensor::set_selection_rule_",BT+":btensor::shift_selection_rule_",BT+":btensor::non_conserving_cval_shift_"])
p("C30","A view at fixed positions contains the slice of the original",
  "basic_create_view(dims) returns a tensor whose entry at the remaining indices equals the original entry with the fixed positions inserted, with the selection rule reduced by the fixed charges.",
  "all tensors, fixed/free patterns, positions",
  "Exponentially many fixed/free patterns per rank.",
  [BT+":btensor::basic_create_view",BT+":btensor::shape_from"])
p("C31","shape_from keeps the free dimensions and absorbs the fixed charges",
  "shape_from(dims) keeps sections, sizes and charges of the -1 dimensions in order, its selection rule is the original rule with the charges of the fixed sections removed, and any other out of range entry is rejected.",
  "all tensors and dims lists",
  "All shapes and patterns.",
  [BT+":btensor::shape_from"])
p("C32","The outer shape of several tensors concatenates them",
  "shape_from(a,b,...) concatenates the dimensions of its arguments in order and composes their selection rules; a block of the result is allowed iff its index splits into parts whose charges compose to that rule.",
  "all lists of shapes",
  "All shapes.",
  [BT+":shape_from",BT+":tensor_product_shape"])
p("C33","eye is the unit of contraction",
  "eye_like(shape) stores exactly the allowed diagonal blocks, each an identity.",
  "all square shapes",
  "All shapes.",
  [BT+":eye_like",BT+":eye"])
p("C34","any() reports a true element anywhere in the tensor",
  "any() on a boolean block tensor is true iff some element of some stored block is true.",
  "all block patterns",
  "Depends on the order of all blocks.",
  [BT+":btensor::any"])
p("C35","find_selection_rule finds the unique compatible rule or throws",
  "For a dense tensor and shape, find_selection_rule returns the charge common to all non-zero blocks and throws logic_error if they disagree.",
  "all shapes and dense inputs",
  "All inputs.",
  [BT+":find_selection_rule"])
p("C36","Broadcasting a product keeps conservation and dense content",
  "mul(a,b) with equal shapes multiplies entrywise; single-section size-one dimensions broadcast; the result only contains allowed blocks.",
  "all compatible pairs",
  "All shapes.",
  [BT+":btensor::mul",BT+":mul_helpers::shape_compute",BT+":broadcast_operation"])
p("C37","Truncation keeps between min and max values and discards no more than allowed",
  "compute_last_index keeps at least min_size values (or all there are), never more than max(min_size,max_size), discards weight at most tol^pow unless max_size forces more, and discards as many as those constraints permit.",
  "all weight lists, tolerances and bounds with at least one value and min_size at least 1",
  "All lists and parameters.",
  [LA+":compute_last_index",LA+":truncate"])
p("C38","The ascending truncation respects its size bounds",
  "compute_first_index_ascending returns an index that keeps between min_size and max_size values.",
  "all lists and bounds",
  "Boundary parameters trigger unsigned wrap-around.",
  [LA+":compute_first_index_ascending"])
p("C39","Truncating an eigen-decomposition is driven by the eigenvalues",
  "truncate of a (values, vectors) pair and eigh with a tolerance drop the entries whose eigenvalues are negligible, and return the pair in the same order.",
  "all decompositions",
  "All inputs.",
  [LA+":truncate(tuple)",BL+":truncate(tuple<btensor,btensor>)"])
p("C40","Block truncation keeps the globally largest singular values",
  "truncating a block singular value decomposition keeps at least min and at most max values over all blocks together, never discards a value larger than a kept one, and drops the blocks of U and V that belong to an emptied block of d.",
  "all block spectra, bounds and tolerances",
  "Interplay of any number of blocks, ties and zeros.",
  [BL+":truncate_impl",BL+":remove_unit_blocks"])
p("C41","Collecting blocks of equal charge into dense matrices loses nothing",
  "Before a factorisation, every stored block appears in exactly one dense matrix, at row and column ranges disjoint from those of every other block of that matrix, blocks grouped only with blocks of equal row and column charge.",
  "all conserving block tensors with at least two dimensions (the last two are the rows and columns)",
  "All block patterns.",
  [BL+":compact_dense",BL+":compact_dense_single",BL+":reorder_by_cvals"])
p("C42","Factors of a singular value decomposition are conserving tensors",
  "svd(tensor) produces U with the input's rule, V with a neutral rule and d neutral, where every produced block satisfies its rule, so no exception escapes for a conserving input.",
  "all conserving inputs",
  "All shapes and groups.",
  [BL+":svd"])
p("C43","Eigen-decomposition of a conserving tensor does not throw a conservation error",
  "eigh(tensor) succeeds for every conserving square tensor.",
  "all conserving inputs",
  "All shapes and groups.",
  [BL+":eigh"])
p("C44","MPS and MPO construction accepts exactly the well-linked chains",
  "Constructing an MPS (MPO) from tensors succeeds iff all have rank 3 (4) and neighbouring bond dimensions agree, and the orthogonality center given is inside the chain; otherwise invalid_argument is thrown.",
  "all lists of tensor shapes and centers",
  "All lists.",
  [MH+":MPS::MPS",MP+":MPS::check_ranks",MP+":MPO::check_ranks",MH+":bMPS::bMPS",MH+":bMPO::bMPO",MP+":bMPS::check_one",MP+":bMPO::check_one"])
p("C45","Moving the orthogonality center keeps the state and canonicalises the chain",
  "On a dense MPS, move_oc(i) throws for i outside the chain; otherwise it ends with orthogonality_center == i, the represented state is unchanged, every site passed over rightwards is left-orthonormal and every site passed over leftwards is right-orthonormal.",
  "all chains, all start and target positions",
  "Chains of any length and bond dimension.",
  [MP+":MPS::move_oc"])
p("C46","Random strings satisfy the requested total charge",
  "When the random string generator returns, the charges it selected compose to the requested total, whatever the random numbers; the recorded distance is always the true one.",
  "all physical index lists, lengths, passes and random choices",
  "All random outcomes.",
  [MP+":generate_random_string"])
p("C47","A satisfiable total charge is always reached",
  "If some choice of physical states has the requested total charge then random_bMPS succeeds with the number of passes it chooses.",
  "all physical index lists and totals",
  "All inputs.",
  [MP+":generate_random_string",MP+":random_bMPS"])
p("C48","A random block MPS has the requested total charge and linked bonds",
  "Every bond of the random block MPS carries, on its two sides, inverse charges and equal section sizes, and every generated charge string corresponds to an allowed block at each site.",
  "all lengths, bond dimensions and strings",
  "All inputs.",
  [MP+":make_right_side",MP+":random_bMPS_impl"])
p("C49","A DMRG sweep stays inside the chain and returns to its start",
  "For every chain of at least two sites and every starting center, each local update touches sites oc and oc+1 that exist, each sweep updates every neighbouring pair, and ends at the center and direction it started from, so the surprising-center runtime_error is never raised.",
  "all chain lengths, all starting centers, any number of sweeps",
  "Unbounded chain lengths and sweep counts.",
  [DM+":sweep",DM+":dmrg_2sites_update",DM+":dmrg_impl"])
p("C50","Every local DMRG update uses up-to-date environments",
  "At each two-site update the left environment is the contraction of the current tensors of all sites to the left and the right environment of all sites to the right.",
  "all chain lengths, starting centers, update functions and sweep counts",
  "Staleness shows only after particular turn-arounds.",
  [DM+":generate_env_impl",DM+":dmrg_2sites_update"])
p("C51","DMRG returns a state whose orthogonality center is where it says",
  "After dmrg, the tensors left of orthogonality_center are left-orthonormal and those to its right are right-orthonormal.",
  "all chain lengths and starting centers",
  "Depends on start position, chain length and dense or block flavour.",
  [DM+":dmrg_impl"])
p("C52","DMRG stops, and logs each sweep once",
  "dmrg performs at most maximum_iterations sweeps, stops at the first sweep whose energy change is not above the criterion, calls init once, it_log_all once per sweep with consecutive numbers, end_log_all once, and the last it_log_all and end_log_all receive the same step number.",
  "all energy sequences, criteria and iteration limits",
  "All energy histories.",
  [DM+":dmrg_impl",DL+":dmrg_logger"])
p("C53","The two-by-two eigenproblem returns the lowest eigenpair",
  "eig2x2Mat(a0,a1,b) returns the smallest eigenvalue of [[a0,b],[b,a1]] and a unit eigenvector for it, for every real input including diagonal and scalar matrices.",
  "all real a0,a1,b (exact arithmetic)",
  "All reals; the singular branches are measure zero.",
  [DM+":eig2x2Mat_impl"])
p("C54","A local update returns a normalised state of no higher energy",
  "For a normalised two-site state and a symmetric effective Hamiltonian, the updated state is normalised and the returned energy is its expectation value and does not exceed the previous one.",
  "all states and Hamiltonians (exact arithmetic)",
  "All inputs.",
  [DM+":one_step_lanczos_impl",DM+":two_sites_update_impl"])
p("C55","The Heisenberg MPO represents the nearest-neighbour Hamiltonian at every length",
  "Contracting the MPO of Heisenberg(J,L) gives the sum over neighbours of -J/4 (2 S+S- + 2 S-S+ + SzSz).",
  "all L at least 2, all J",
  "All chain lengths; tests check length 3.",
  [MO+":Heisenberg_impl",MO+":Heisenberg"])
p("C56","The Hubbard MPO represents the Hubbard Hamiltonian at every length",
  "Contracting the MPO of Hubbard(U,mu,L) gives the sum of on-site terms and of the fermionic hopping terms between neighbours.",
  "all L at least 2, all U, mu",
  "All chain lengths.",
  [MO+":Hubbard"])
p("C57","The fermion operators anticommute across a chain of any length",
  "The annihilation operators on sites i and j of a chain, dressed with the phase operator F on preceding sites, satisfy the canonical anticommutation relations.",
  "all chain lengths, sites and spins",
  "All pairs of sites in chains of any length.",
  [OP+":fermions"])
p("C58","Dimension list helpers compute what they are named after",
  "concat concatenates, prod multiplies the listed dimensions (n of them from start), reverse returns the list in reverse order with the same length.",
  "all lists and ranges",
  "All lists.",
  [DI+":concat",DI+":prod",DI+":reverse"])
p("C59","Generalised contraction scales its inputs as documented",
  "tensorgdot(C,A,B,...,beta,alpha) computes alpha*C + beta*(A.B) as documented in its header.",
  "all tensors and scalars",
  "Default arguments are both one, hiding the roles.",
  [TG+":tensorgdot","include/tensorgdot.h:tensorgdot"])
p("C60","item() extracts the only element",
  "item() returns the single stored value for a one-element tensor, zero if no block is stored, and throws logic_error if more than one block is stored.",
  "all tensors",
  "All block patterns.",
  [BT+":btensor::item"])

FMH="include/blockTensor/flat_map.h"
p("C61","lower_bound and upper_bound of flat_map point where the standard says","lower_bound(k) is the position of the first entry whose key is not less than k, upper_bound(k) of the first entry whose key is greater than k, end() if there is none.","all maps and keys","The answer depends on the order of the key relative to all stored keys; tests use present keys.",[FMH+":flat_map::lower_bound",FMH+":flat_map::upper_bound"])
p("C62","flat_map equality is equality of the maps","Two containers compare equal exactly when they associate the same values to the same keys.","all pairs of sorted containers","Extensionality over all keys.",[FMH+":operator==(flat_map,flat_map)"])

p("C63","anynan() finds a NaN anywhere in the tensor","anynan() is true exactly when some element of some stored block is NaN.","all tensors and block patterns","All block patterns; depends on short-circuit order.",[BT+":btensor::anynan"])
p("C64","sum() is the sum of all entries","sum() returns a rank 0 tensor whose value is the sum of the entries of the dense tensor, and which is itself a conserving tensor.","all conserving tensors","All block patterns and selection rules.",[BT+":btensor::sum"])

p("C65","basic_index_put_ writes a slice and nothing else","basic_index_put_(dims, value) makes the slice at the fixed positions equal to value and leaves every other entry unchanged.","all tensors, patterns of fixed and kept dimensions and values","All block patterns of the tensor and of the value; entries absent on one side matter.",[BT+":btensor::basic_index_put_"])

p("C66","The factors of a singular value decomposition multiply back to the tensor","For (U, d, V) = svd(tensor), every entry of the tensor is the sum over the new bond of U * d * conj(V), and the columns of U and of V over that bond are orthonormal.","all conserving tensors of the default element type (others: C110), all groups, every dense factorisation that satisfies these laws on a single matrix","Depends on which blocks are stored, in which order columns are met, and how many matrices share a charge.",[BL+":svd",BL+":compact_dense",BL+":compact_dense_single"])

p("C67","eigh of a hermitian tensor is an eigenvector decomposition","For (d, U) = eigh(tensor) of a hermitian tensor, every entry of the tensor is the sum over the new bond of U * d * conj(U), and the columns of U over that bond are orthonormal.","all hermitian conserving tensors, all groups, every dense solver that satisfies these laws on a single hermitian matrix","Depends on which blocks are stored and in which order rows and columns are met.",[BL+":eigh",BL+":compact_dense_single"])
p("C68","A truncated SVD only loses the discarded terms","Multiplying the factors returned by truncate(U,d,V) gives, at every entry, the sum of the terms U*d*V of the values that were kept. When (U,d,V) came from svd(tensor), the square of the Frobenius distance between tensor and this product is the sum of the squares of the discarded singular values, and no sum of as many products of a tensor of the first dimensions and one of the others is nearer to the tensor.","all factorisations with sorted blocks and at least one value, all truncation parameters with min >= 1 and a non-negative tolerance; the error formula: all real conserving tensors of the default element type (others: C110) with at least one singular value, all splits of their dimensions, every dense SVD satisfying the laws of an SVD on a single matrix","Depends on the interplay of the sections of three tensors cut independently, for every block structure and spectrum.",[BL+":truncate",BL+":truncate_impl",BL+":svd"])

p("C69","contract computes the matrix element of the chains","contract(a, b, obs, left, right) of dense chains is the sum over all configurations of the physical indices of a(sigma) * obs(tau, sigma) * conj(b(tau)), closed by the edge tensors; contract(a, b, left, right) is the sum of a(sigma) * conj(b(sigma)). With ends of size one and edges of ones these are <b|obs|a> and <b|a>.","all chains of any length, all bond and physical dimensions, all entries, all edges","The claim is a sum over exponentially many configurations, for every chain; a test compares a few small chains.",["sources/MPT.cpp:contract"])
p("C70","The shape of selected dimensions of a dense tensor","shape_from(tensor, inds) of a dense tensor has the sizes of the dimensions marked -1, in order; contract and generate_env without explicit edges use it to build edges that fit their chains.","all shapes, all lists of marks, all chains","An out of bounds write of one element usually does no visible damage in a test.",["sources/btensor.cpp:shape_from(const torch_shape&, const std::vector<int64_t>)","sources/MPT.cpp:contract","sources/dmrg.cpp:edge_shape_prep","sources/dmrg.cpp:generate_env_impl"])
p("C71","Environments and two-site Hamiltonian represent the whole Hamiltonian","For a dense chain in which two neighbouring sites are described by one tensor theta, the environments of the other sites and the two-site Hamiltonian computed by DMRG turn hamil2site_times_state into the compression of the whole MPO: its inner product with any two-site tensor phi is <Psi(phi)|H|Psi(theta)>. The energy a local update starts from is contract(state, state, hamiltonian).","all chain lengths and positions, all bond and physical dimensions, all tensors","The claim is about sums over exponentially many configurations, at every position of every chain.",["sources/dmrg.cpp:compute_left_env","sources/dmrg.cpp:compute_right_env","sources/dmrg.cpp:compute_2sitesHamil","sources/dmrg.cpp:hamil2site_times_state","sources/dmrg.cpp:generate_env_impl"])

p("C72","Canonical form makes the two-site problem variational","For a dense chain whose sites left of a pair are left-orthonormal and right of it right-orthonormal, the two-site tensor and the whole state have the same inner products. So the energy the two-site Hamiltonian gives any normalised two-site tensor is an energy of a normalised state, and is never below the spectrum of the whole Hamiltonian.","all chain lengths and positions, all bond and physical dimensions, all canonical sites, all two-site tensors, all Hamiltonians as MPOs","It is about sums over exponentially many configurations and about every vector of the Hilbert space.",["sources/dmrg.cpp:hamil2site_times_state","include/MPT.h:MPS::move_oc","sources/dmrg.cpp:compute_left_env"])
p("C73","One DMRG update keeps a normalised state and lowers its energy","One two-site update without truncation, in either direction, on a normalised chain that is canonical around the pair, for a hermitian MPO: it returns a chain with the same sites and ends, canonical around the new center, normalised; the energy returned is the expectation value of the whole Hamiltonian in it; it is not above the energy before, below it if the residual was not negligible, the lowest on the span of the two-site state and its image, and never below the spectrum.","all chain lengths, positions and directions, all bond and physical dimensions, all hermitian MPOs, all normalised canonical chains","Energy and norm are properties of the whole state; the claim is for all states and Hamiltonians.",["sources/dmrg.cpp:dmrg_2sites_update","sources/dmrg.cpp:two_sites_update","sources/dmrg.cpp:one_step_lanczos","sources/dmrg.cpp:eig2x2Mat"])
p("C74","A DMRG run returns the energy of the state it returns and never raises it","dmrg on a normalised dense chain canonical around its center, hermitian MPO, no truncation: it returns; the energy returned is the expectation value of the Hamiltonian in the state left in in_out_state, which has norm one; it is at most the energy of the initial state and at least the lowest eigenvalue; every logged energy is the expectation value in the logged state, and the logged energies never increase.","all chains of two sites or more, all hermitian MPOs, all positions of the center, all iteration limits and convergence criteria","A statement about whole runs of unbounded length, on states of unbounded size.",["sources/dmrg.cpp:dmrg","sources/dmrg.cpp:dmrg_impl","sources/dmrg.cpp:dmrg_2sites_update"])

p("C75","Contracting block chains with given edges is the full sum over configurations","For block-sparse MPS a, b (and a block MPO) whose bonds and sites can be contracted, contract(a,b,obs,left,right) and contract(a,b,left,right) return a scalar equal to the sum over every configuration of the dense tensors the blocks stand for, closed by the edges; its selection rule is the sum of the rules, those of b negated.","all groups of conserved charges, all lengths, all section structures (including several sections of equal charge), all stored block patterns, any commutative coefficients with conjugation","the sum has exponentially many terms and the section structures are unbounded; the tests contract a few random chains",["sources/MPT.cpp:contract","sources/btensor.cpp:tensordot","sources/btensor.cpp:conj"])
p("C76","The block two-site Hamiltonian is the compression of the whole operator","For a block chain and block MPO, applying hamil2site_times_state with the left and right environments and the two-site Hamiltonian gives, for any two-site block tensor theta, the tensor whose inner product with any phi is <Psi(phi)|H|Psi(theta)>; the result has the shape of theta and the rule of theta plus that of the operator.","all chains, positions, operators, section structures and two-site tensors","DMRG on conserving states is right only if this holds for every bond and sector; a test can compare one energy",["sources/dmrg.cpp:compute_left_env, compute_right_env, compute_2sitesHamil, hamil2site_times_state"])
p("C77","contract(a,b) and contract(a,b,obs) of block chains without edges are the overlap and the matrix element","Without edges, contract makes them: the result is the overlap (matrix element) traced over the ends.","all block chains with equal end dimensions and no empty dimension","whether the default edges hold the right block depends on the order of sections and the charges inside the end tensors",["sources/MPT.cpp:contract","sources/dmrg.cpp:edge_shape_prep"])
p("C78","generate_env makes edges that close a block chain","The edges made by generate_env for a block Hamiltonian and state are ones wherever charges allow it, fit the ends, and for ends with a single element make the effective two-site Hamiltonian the compression of the whole operator.","all block chains and operators without empty dimensions","depends on the charges at the ends and on the evaluation order of arguments, which a test on one compiler cannot vary",["sources/dmrg.cpp:edge_shape_prep, generate_env"])
p("C79","svd of a block tensor between two groups of its dimensions factorises it","svd(tensor, split) returns U, d, V: U has the first split dimensions and a bond, V the others with opposite charges and the bond, each entry of the tensor is the sum over the bond of U * d * conj(V), columns of U and of V over the bond are orthonormal, U keeps the selection rule and d and V are neutral.","all conserving tensors of any rank, all splits, groups and section structures, every dense factorisation that satisfies the laws of an SVD on a single matrix","Depends on how the sections of several dimensions fuse and which blocks are stored; tests use a few tensors, none of them without blocks.",["sources/btensor_linalg.cpp:svd(const btensor&, size_t)","sources/btensor.cpp:btensor::shape_from"])
p("C80","Moving the orthogonality center of a block MPS keeps the state, the charges and canonicalises the chain","bMPS::move_oc(i) throws for i outside the chain; otherwise it ends with the center at i, the same state, the same physical and outer dimensions with their charges and the same total selection rule; every site passed over rightwards is left-orthonormal and every site passed over leftwards right-orthonormal, other sites are untouched, and tensors still fit.","all block chains of any length, groups, section structures and stored blocks, all centers and targets","Chains of any length and every distribution of charges over the bonds.",["sources/MPT.cpp:bMPS::move_oc"])
p("C81","One update of the block DMRG keeps charges and norm and lowers the energy","One two-site update without truncation of a normalised conserving chain, canonical around the pair, for a hermitian conserving MPO: it returns a chain with the same physical and outer dimensions, charges and total selection rule, canonical around the new center and normalised; the energy returned is the expectation value of the whole Hamiltonian in it, not above the energy before, and the lowest on the span of the two-site state and its image.","all groups of charges, section structures and stored blocks, all chain lengths, positions and directions, all hermitian conserving MPOs, all normalised canonical block chains","Which blocks are stored differs between every state; the claim is about whole states of exponential size.",["sources/dmrg.cpp:dmrg_2sites_update","sources/dmrg.cpp:two_sites_update_impl","sources/dmrg.cpp:one_step_lanczos_impl","sources/dmrg.cpp:eig2x2Mat_impl"])
p("C82","A block DMRG run returns the energy of the state it returns and never raises it","dmrg on a normalised conserving chain canonical around its center, hermitian conserving MPO, no truncation: it returns; the energy returned is the expectation value of the Hamiltonian in the state returned, which has norm one and the charges of the initial state; it is at most the energy of the initial state and at least the lowest eigenvalue; every logged energy is the expectation value in the logged state, and logged energies never increase.","all block chains of two sites or more, all groups, all hermitian conserving MPOs, all centers, iteration limits and convergence criteria","Whole runs of unbounded length on states of unbounded size.",["sources/dmrg.cpp:dmrg","sources/dmrg.cpp:dmrg_impl","sources/dmrg.cpp:dmrg_2sites_update"])
p("C83","Turning a dense MPO into a block MPO keeps the operator or throws","to_bMPO on a chain of two or more tensors that fit the given local shape: if every entry either has the charges of the selection rule and lies in a block of norm above 1e-4, or is below allclose's absolute tolerance 1e-8, it returns one conserving block tensor per site, with the local shape (its left bond cut to the last position at the first site, its right bond to the first position at the last site) that holds the given entries; otherwise it throws invalid_argument. Whatever it returns differs from the given tensors by at most 2e-8 in every entry.","all abelian groups, local shapes of rank four, chain lengths and tensors","Entry by entry claim over all operators, shapes and charges, with a cutoff and a tolerance that interact.",["sources/models.cpp:to_bMPO","sources/btensor.cpp:from_basic_tensor_like","sources/btensor.cpp:basic_create_view"])
p("C84","The block Heisenberg and Hubbard Hamiltonians are the dense ones","Heisenberg(J, length, phys_shape) and Hubbard(U, mu, length, phys_shape) give a chain of conserving block tensors whose operator is the Heisenberg (Hubbard) Hamiltonian, for every physical shape whose charges the Hamiltonian conserves and every coupling.","all lengths from two, couplings, abelian groups and charges of the physical states","Unbounded chain length, all groups of charges and all couplings; the tests only use charges and couplings for which the construction works.",["sources/models.cpp:Heisenberg","sources/models.cpp:Hubbard","sources/models.cpp:to_bMPO"])
p("C85","The truncated SVD of a dense tensor is the best approximation of its size, within the tolerance","svd(A, split) cuts the dimensions of a dense tensor in two groups and returns u, d, v with A = u diag(d) v^H entry by entry, orthonormal columns and decreasing non negative d. svd(A, split, tol, min_size, max_size) keeps k of them, min_size <= k <= max_size where there are that many: the distance to A is at most tol unless max_size limits k, no other sum of k column-row products is closer to A, and no sum of fewer (but at least min_size) products is within tol. A tensor without entries throws.","all tensors of any rank and sizes, all splits, all tolerances, all limits with min_size >= 1, every dense factorisation that satisfies the laws of an SVD on a single matrix","optimality quantifies over all other approximations; tests look at a few random matrices",["sources/LinearAlgebra.cpp:svd","sources/LinearAlgebra.cpp:truncate","sources/LinearAlgebra.cpp:compute_last_index"])
p("C86","A DMRG update with truncation gives the best chain of its bond, and its energy is off by at most the weight lost","One two-site update of dense DMRG with cutoff, minimum_bond and maximum_bond: the state stays normalised and canonical; the energy returned is that of the state found before truncation and is not above the previous energy; the bond is within its limits; the weight lost is at most cutoff^2 unless maximum_bond is reached; no other pair of tensors with a bond not larger overlaps more with the state found, and none with a smaller bond (at least minimum_bond) keeps the loss within the cutoff; the energy of the new chain differs from the one returned by at most the width of the spectrum times the square root of the weight lost.","all chains with ends of size one in canonical form around the pair, all hermitian MPOs, all pairs, both directions, all cutoffs, all limits with minimum_bond >= 1 or a cutoff below one, every dense SVD that satisfies its laws","optimality quantifies over all other tensors; the energy bound over all Hamiltonians and states",["sources/dmrg.cpp:two_sites_update","sources/dmrg.cpp:details::one_step_lanczos","sources/LinearAlgebra.cpp:svd","include/dmrg_options.h:dmrg_options"])
p("C87","A DMRG run with truncation returns a normalised state within its bond limit, whose energy is the one returned up to the cutoff","A whole dense DMRG run with cutoff and bond limits returns; the state returned is normalised with the same physical sizes; the energy returned is within the bounds of the spectrum; each logged state is normalised with every bond at most the larger of maximum_bond and minimum_bond; if no update reaches maximum_bond, each energy logged is that of its state up to the width of the spectrum times the cutoff, and energies grow by at most that much per update (not at all without cutoff).","all chains, Hamiltonians, cutoffs, limits, numbers of sweeps and convergence criteria; every update regular as in C73","the number of sweeps, sites and the Hamiltonian are unbounded; a run has many truncations whose errors must add up",["sources/dmrg.cpp:dmrg_impl","sources/dmrg.cpp:sweep","sources/dmrg.cpp:two_sites_update","sources/MPT.cpp:MPS::move_oc"])
p("C88","bmm multiplies every pair of matrices of two batches","a.bmm(b) of two conserving tensors of the same rank (two or more) whose first dimensions have the same section sizes and whose matrices fit section by section in size and opposite charge: the result has the first dimensions with the charges of both operands added, the rows of a, the columns of b and the sum of the selection rules, and every matrix of the batch is the product of the two. Operands that do not fit are rejected with invalid_argument.","all groups of charges, ranks, section structures and stored blocks, any semiring of entries","The loops walk over two differently sorted block lists and skip; which blocks meet depends on the block patterns of both operands.",[BT+":btensor::bmm",BT+":mul_helpers::check_bmm_compatibility"])
p("C89","squeeze removes dimensions of one element and nothing else","squeeze(dim) of a dimension with one element removes it, takes its charge out of the selection rule and keeps every entry, and does nothing for any other dimension; squeeze() does so for all dimensions with one element.","all conserving tensors, groups, section structures and positions","All block patterns and charges; whether it works depends on the charges of the dimensions removed.",[BT+":btensor::squeeze",BT+":btensor::squeeze_"])
p("C90","Operations out of place do not change any existing tensor","After any program over block tensors (copies, assignments, sums, products, operations in place), a statement that makes a new tensor - a copy, add, sub, mul, operator+ and operator- - leaves the value of every variable as it was and gives the new one the value of the operation; a program without operations in place cannot observe that copies share storage.","all programs of any length, all tensors and numbers","copies share storage block by block, and which blocks are shared depends on the history of the program; tests look at the result and rarely at the operands",[BT+":btensor::add",BT+":btensor::mul","include/blockTensor/btensor.h:btensor::sub"])
p("C91","An operation in place changes its target, and other tensors only in the blocks they share with it","After any program: a.add_(b,alpha) gives a the value of a.add(b,alpha); in any other variable, b included, a block changes exactly when its storage is shared with the block of a at that index and b stores a block there, and then becomes the new block of a (as documented: shallow copies see updates of the blocks present when they were made). Without sharing nothing else changes. The same for mul_, and for add_ of a temporary or moved-from other variable b, where b is left without blocks.","all programs of any length, all patterns of sharing","the pattern of shared storage depends on the whole history",[BT+":btensor::add_",BT+":btensor::mul_","include/blockTensor/btensor.h:btensor::sub_"])
p("C92","allclose on block tensors is allclose on their entries","For two block tensors of the same shape and selection rule, allclose(a,b,rtol,atol) is true exactly when |a_e - b_e| <= atol + rtol*|b_e| for every element e, whichever zero blocks are stored; tensors of different shapes are not close.","all pairs of tensors, all tolerances","the answer must not depend on which zeros are stored, for all patterns of blocks",[BT+":allclose",BT+":btensor::test_same_shape"])
p("C93","Adding a number to a block tensor","t.add(c,alpha) and t.add_(c,alpha) add c*alpha to every element that the selection rule allows, stored or not, and leave the others zero; the result keeps its selection rule.","all tensors with a section in every dimension, all numbers","holds for every pattern of stored and missing blocks",[BT+":btensor::add",BT+":full_like"])
p("C94","Dividing a number by a block tensor","c / t divides c by every stored element of t.","all tensors and numbers","the number of blocks varies",[BT+":operator/"])
p("C95","An MPS variable is always a linked chain with its center inside","After any program over MPS variables (constructions, copies, moves, assignments, swaps, moves of the orthogonality center, changes through the container interface) every variable is empty or a chain of rank three tensors with matching bonds whose orthogonality center is one of its sites, represents the state it was given, and its center can be moved to any site.","all programs of any length, over any number of variables","holds over all histories of constructions, copies, moves and modifications",["include/MPT.h:MPS","include/MPT.h:vector_lift","include/MPT.h:bMPS"])
p("C96","Dense DMRG without a starting state","A dense DMRG that is given a Hamiltonian and no state draws a chain that fits the Hamiltonian and returns a state of norm one with the physical dimensions of the Hamiltonian; every iteration leaves a state of norm one and bonds no larger than allowed; the energies reported lie within the spectrum of the Hamiltonian and are those of the states up to the weight truncated.","all MPOs, all numbers drawn, all options, all numbers of sweeps, all exact SVDs","the chain it starts from is random and neither normalised nor canonical; holds for all draws",["sources/dmrg.cpp:dmrg","sources/MPT.cpp:random_MPS","sources/MPT.cpp:random_MPS_impl"])
p("C97","Block DMRG with truncation","One two-site update of the block DMRG returns the energy of the state it found before truncation, which is not above the previous energy; the new chain conserves the charges, has norm one, is canonical where the sweep goes on, and is the best approximation of that state with as many elements of the bond as it uses, which are no more than the options ask for unless values are equal. Over a run the energies reported lie within the spectrum and are those of the chains up to the weight truncated.","all hermitian block MPOs that leave the charge unchanged, all normalised canonical block chains, all cutoffs and limits of the bond, all numbers of sweeps, all exact SVDs, entries of the default element type (others: C110)","the truncation empties sections of the bond and keeps ties, so the chain is only canonical up to unused elements; holds for all chains, limits and runs",["sources/dmrg.cpp:two_sites_update",BL+":svd",BL+":truncate_impl","sources/dmrg.cpp:dmrg_2sites_update","sources/dmrg.cpp:dmrg_impl"])
p("C98","Lists of quantities of a type known at run time","A program that creates, copies, moves, assigns, swaps and modifies lists of conserved quantities whose type is only known at run time, within their bounds, has the effect of the same program on plain lists: every statement changes its own list only; putting in a quantity of another type throws bad_cast and changes nothing, and all quantities of a list have one type after every history.","all programs over any number of such lists, all types of quantities, all positions and ranges, with the exceptions caught","histories of modifications through a type-erased interface; a quantity of the wrong type, a moved from list or a refused statement may come at any point",["include/Conserved/Composite/quantity_vector.h:any_quantity_vector","include/Conserved/Composite/quantity_vector_impl.h:quantity_vector","sources/btensor.cpp:c_vals_from_struct_list"])
p("C99","Functions of elements and comparisons","sqrt, abs, powers, division and isnan of a block tensor, in place or not, apply the function to every element and keep shape and rule; comparing a block tensor with a number or another tensor, with broadcasting, gives the comparison of the elements at every element.","all groups of charges, all conserving tensors, all shapes that fit, all numbers and all six comparisons, at every element, whether in a stored block or not","elements outside of the stored blocks are never computed, so a test must happen on a shape with such elements, a function and a number for which zero is not mapped to zero",[BT+":le",BT+":ge",BT+":eq",BT+":less",BT+":not_equal",BT+":greater",BT+":sqrt",BT+":abs",BT+":pow",BT+":div",BT+":isnan",BT+":broadcast_operation"])
p("C100","What a tensor reports about its dimensions","A block tensor built from a list of dimensions reports the number, sizes and charges of the sections of each dimension, the dimension sizes and the charge at an element as listed; asking for what does not exist throws; the constructor from parts accepts exactly consistent parts; and the number of allowed blocks is counted exactly.","all lists of dimensions, all dimension, section and element indices, all block lists, in release and debug builds","the sections of all dimensions are in one array, so a wrong offset or a missing check reads a section of another dimension and shows only for some shapes and indices",[BT+":section_size",BT+":section_conserved_qtt",BT+":element_conserved_qtt",BT+":check_tensor",BT+":btensor_compute_max_size",BT+":tensor_list_size_guess","include/blockTensor/btensor.h:block_prop_view"])
p("C101","Chains are Python sequences","Through Python a chain of tensors is a sequence: positive and negative indices, slices with any step, assignment, insertion, removal, append, pop and clear return and leave what they do for a list, an exception is raised exactly where a list raises one, and a slice of a matrix product state is still centered where it says.","all chains, all histories of operations, all indices and slices, including negative steps and positions that do not exist","the index arithmetic mixes signed and unsigned integers and wraps; only particular signs, steps and lengths expose a wrong position or an unchecked one",["python_binding/networks.cpp:common_core","include/MPT.h:vector_lift"])
p("C102","Blocks and methods of block tensors in Python","From Python, assigning a block succeeds exactly for an allowed block index and a tensor of that block's sizes, and then sets that block only; inverse_cvals_ inverts the tensor's charges in place; tensordot with a number contracts that many last dimensions of the first with the first ones of the second.","all conserving tensors, block indices, block values of any rank, numbers of contracted dimensions","a missing check on the rank of the value, or a method bound to the wrong overload, passes every test that uses fitting values or the result only",["python_binding/quantt.cpp:blocks","python_binding/quantt.cpp:inverse_cvals_","python_binding/quantt.cpp:tensordot"])
p("C103","The block DMRG stays in its sector","The ground state search never leaves the sector of conserved quantities it is asked for: started from a conserved quantity, every configuration with an amplitude other than zero in the state it returns, or shows to the logger after an iteration, has that total charge; started from a state, it has the charge of that state.","all conserving Hamiltonians, starting states, random numbers, cutoffs, limits of the bond, numbers of iterations, abelian groups of charges","a state of a neighbouring sector can have lower energy, so a leak looks like better convergence; whether a truncation or contraction leaks depends on the blocks met during the run",[DM+":dmrg",MP+":random_bMPS",DM+":two_sites_update"])
p("C104","Compressing an operator chain keeps the operator and removes what is redundant","coalesce() of a chain of block operator tensors returns a chain of as many tensors, with the same physical dimensions, ends and selection rules, whose entries between any two configurations are those of the chain it was given. No bond grows, no bond is larger than what the tensor to its left can need, and afterwards the operators made by the tensors left of a bond, one for each element of the bond, are linearly independent.","all lengths, abelian groups of charges, section structures, block patterns, entries of the default element type (others: C110), every dense SVD that satisfies its laws","each step changes the two tensors next to a bond, so that the operator is kept only if all the steps fit together; which values are kept depends on the blocks of the tensors reached",[MP+":bMPO::coalesce",BL+":svd"])
p("C105","The loggers of the library record the run they watch","dmrg_log_sweeptime, given to any DMRG run, has afterwards two lists of maximum_iterations places and never writes outside them: for each sweep made, the time between the readings of the clock before and after it and the larger bond of the middle site of the state after it, and zeros in the other places, so that the times add up to the duration of all sweeps; it and dmrg_log_simple hold the number given at the end and the larger bond of the middle site of the final state. What they contained before the run makes no difference.","all runs of any number of sweeps and sites, all clocks, all previous contents of the logger","the number of sweeps is not known beforehand and a write past the end of the lists is undefined behaviour",[DL+":dmrg_log_simple",DL+":dmrg_log_sweeptime",DM+":dmrg_impl"])
p("C106","A contraction into a tensor of the caller is stored there","tensorgdot_(output,A,B,...) leaves beta*output + alpha*(A.B) in output, and tensorgdot_out(output,C,A,B,...) leaves beta*C + alpha*(A.B) there, whatever the memory layout of output; no other memory changes. The version that takes a number of dimensions contracts the last ones of A with the first ones of B.","all outputs without internal overlap with any strides and offset, all inputs, contracted dimensions and scale factors","whether the result arrives depends on the strides of the output tensor, and the unit tests only use freshly allocated outputs of rank two",[TG+":tensorgdot_",TG+":tensorgdot_out"])
p("C107","The operators of the sites with conserved quantities are the dense operators","pauli(shape) returns, in the documented order, the lowering operator, Sz and the identity as block tensors of the given shape; fermions(shape) returns the two annihilators, the phase operator and the identity. Each has the same entries as the dense operator, the charge it changes as its selection rule, and stores only blocks that obey it. When the charges of the states cannot give an operator one rule, or when the shape already stores blocks, the call throws logic_error.","all groups of charges and all ways to assign them to the states of a site, including degenerate ones that share a section","the assignment of charges is free; a wrong rule or a dropped block shows only for particular sections",[OP+":pauli",OP+":fermions",BT+":find_selection_rule"])
p("C108","A modifying call that throws leaves the tensor as it was","If a.add_(b), a.mul_(b), a.div_(b), a.pow_(b) or a.basic_index_put_(dims,b) throws, the shape, the selection rule and the blocks of a are what they were before the call, so that the caller can catch the exception and go on with a.","all tensors a and b, all scalars, all slices, whatever block the exception comes from","the exception can come from any block, after any number of blocks has been changed; tests check that it is thrown, not what it leaves behind",[BT+":btensor::add_",BT+":btensor::mul_",BT+":btensor::broadcast_operation_",BT+":btensor::basic_index_put_",BT+":btensor::impl_basic_index_put_","include/blockTensor/flat_map.h:flat_map::insert"])
p("C109","Shifting the charges of a tensor by one of its own charges","Shifting the charges of a dimension by a charge that the tensor itself handed out, the charge of one of its sections or elements or its selection rule, has the effect of the shift by a copy of that charge; in place as out of place.","all groups of charges, all tensors, all sections and dimensions","aliasing between an argument and the object: only the sections behind the referred one, in the shifted dimension, show it",[BT+":btensor::cval_shift_",BT+":btensor::cval_shift",BT+":btensor::non_conserving_cval_shift_",BT+":btensor::shift_impl",BT+":btensor::section_conserved_qtt",BT+":btensor::element_conserved_qtt"])
p("C110","Factorising a block tensor keeps its element type","For (U, d, V) = svd(tensor, split), U d V^H is the tensor, for real and for complex tensors and whatever type is torch's default; the truncated form returns the best approximation; (d, U) = eigh(tensor) of a hermitian tensor gives back the tensor; and the factors can be contracted with tensors of the type of the tensor that was factorised.","all conserving tensors, all element types, both default types, all splits and truncation parameters, every dense factorisation that satisfies its laws","the tests only factorise real tensors of the default type; whether the imaginary part survives depends on the type of an intermediate matrix",[BL+":compact_dense_single",BL+":svd",BL+":eigh",BL+":truncate_impl",BL+":epsilon",MP+":bMPS::move_oc"])
p("C111","The declared element type of a block tensor holds its entries","The element type a block tensor declares is that of its blocks, so that to_dense() gives every entry of the tensor, after any history of from_basic_tensor, products and quotients with numbers, sums and contractions, also of tensors of different types.","all histories of calls, all element types of the tensors and numbers, all shapes and blocks","the declared type is computed apart from the blocks, and only to_dense() converts to it: a test on values that fit the declared type sees nothing",[BT+":btensor::to_dense",BT+":from_basic_tensor",BT+":btensor::mul",BT+":btensor::div",BT+":btensor::add",BT+":btensor::tensordot"])
p("C112","The ground state search on the library's own Hamiltonians","dmrg with Heisenberg(J, L) or Hubbard(U, mu, L) and a normalised state in canonical form returns a normalised state of the chain and its energy: the expectation value of the textbook Hamiltonian of the model in that state. It is at most the energy of the initial state and at least the lowest eigenvalue of the Hamiltonian; for Heisenberg at least (L - 1) min(-J/4, 3J/4). Given no state it draws one, and the energies it logs lie in the spectrum and are those of the states logged up to the width of the spectrum, at most (L - 1) |J| for Heisenberg, times the cutoff.","all lengths of two sites or more, all couplings, all initial states, all exact factorisations, all limits and criteria of the search","the tests run one length with one coupling and compare with a number known for it",[DM+":dmrg",DM+":details::dmrg_impl",MO+":Heisenberg",MO+":Hubbard",MO+":details::Heisenberg_impl",MO+":details::Hubbard_impl",MP+":random_MPS"])
p("C113","Eigenvalue decomposition of a dense hermitian tensor","eigh(A, split) of a tensor that is hermitian as a matrix from its last dimensions to its first split ones gives the eigenvalues in ascending order and orthonormal eigenvectors with the first dimensions of A: the product is A and every column is an eigenvector. A matrix that is not square or not hermitian is refused. With a tolerance, the dropped eigenvalues weigh no more than the tolerance and none is kept that could be dropped; never fewer than min_size nor more than max_size values are kept.","all tensors of all ranks and sizes, all splits, tolerances and limits, all exact routines for the matrix problem","the test decomposes one random matrix",[LA+":eigh",LA+":truncate",LA+":compute_last_index","include/LinearAlgebra.h:eigh"])
p("C114","Charges in variables behave as plain values","Any program that creates, copies, moves, assigns, exchanges, adds, inverts and neutralises any_quantity variables leaves in every variable the charge it would hold if charges were plain values of the group they belong to, whatever variables are named twice. A statement that brings together charges of different groups throws bad_cast and changes no variable; there is no other exception. A variable that was moved from can be given a new value.","all programs of all lengths over any number of variables, all charges of all admissible groups","unit tests run a handful of statements on three variables",["include/Conserved/Composite/cquantity.h:any_quantity","include/Conserved/Composite/cquantity.h:operator*","include/Conserved/Composite/quantity_impl.h:quantity"])
p("C115","The ground state search with conserved charges on the library's own Hamiltonians","dmrg with Heisenberg or Hubbard made for a physical index with conserved charges, from a block state of norm one, canonical around its center and of charge q: the Hamiltonian commutes with the charge; every state logged and the state returned have norm one and charge q; the energy returned is the expectation value of the textbook Hamiltonian in the state returned, at most that of the initial state, and at least the lowest eigenvalue among states of charge q. With truncation the energies logged lie in the spectrum and are those of the states logged up to the cutoff times its width.","all lengths of two sites or more, all couplings, all charges of the sites compatible with the Hamiltonian, all charges of the state, all block states, all exact factorisations, all limits and criteria of the search","the tests run one length, one coupling and one charge, and compare with a number known for it",[DM+":dmrg",DM+":details::dmrg_impl",MO+":Heisenberg",MO+":Hubbard",MO+":details::Heisenberg_impl",MO+":details::Hubbard_impl",MP+":bMPO::coalesce"])
p("C116","The block DMRG given only a Hamiltonian and a charge","dmrg(hamiltonian, charge, options) on block tensors draws a random chain that is in general neither normalised nor canonical. It still returns; every state logged and the state returned have norm one and the requested charge, are canonical around one of the first two sites apart from unused elements of the bonds, and have the dimensions of the Hamiltonian's sites. Except for the first iteration on three sites, the energy logged lies within the spectrum and is that of the state up to the width of the spectrum times the cutoff. With Heisenberg and Hubbard the energy of the states is at least the lowest of that charge.","all hermitian block Hamiltonians with ends of one element, all charges, all random numbers, all exact factorisations, all cutoffs, limits and numbers of iterations","the tests run one Hamiltonian, one charge and one seed, and look at the energy only",[DM+":dmrg",DM+":details::dmrg_impl",DM+":details::dmrg_2sites_update",MP+":random_bMPS",MO+":Heisenberg",MO+":Hubbard"])
p("C117","The ground state search stops when the energy settles","A DMRG run stops by itself: whatever limit is put on the number of iterations, it makes no more than a number that follows from the criterion, the starting energy and the lower bound of the spectrum, and if the limit is above that number, the last two energies differ by no more than the criterion (the dense search compares the change with the criterion, the block search the change divided by the energy). With truncation the same holds if what the truncations of one sweep may lose is not above the criterion. It does not stop because of anything else.","all hermitian Hamiltonians, all starting states, all exact factorisations, all criteria above zero, all limits of the number of iterations","the tests run a few Hamiltonians with the default criterion and look at the final energy; that a loop always ends early enough cannot be sampled",[DM+":dmrg",DM+":details::dmrg_impl",DM+":details::sweep","include/dmrg_options.h:dmrg_options"])
p("C118","Converting the element type, and the types of what is given to DMRG","to(type) on a block tensor or a chain converts every entry and keeps shape, rule and stored blocks; the result declares the new type and stores every block in it, and the entries are kept if the type holds them, so that converting to a larger type and back changes nothing. to() with options that have no type keeps the type. Assigning to dtype in Python converts the tensor. dmrg gives back the Hamiltonian as it was, whether it returns or throws, and a state of the type it was given.","all block tensors and chains, all element types, all runs of DMRG","tests use one element type throughout; that nothing is lost has to hold for every mixture of types and every run, also one that throws",["include/blockTensor/btensor.h:btensor::to",MH+":vector_lift::to",MH+":vector_lift::to_",DM+":dmrg_gradient_guard",DM+":dmrg","python_binding/quantt.cpp:dtype"])
p("C119", "Loggers written in Python hear what their documentation says",
  "A class derived in Python from quantit.algorithm.dmrg_logger and given to dmrg has its methods called as the documentation says: init before the first sweep, it_log_all after every sweep, end_log_all once at the end, and, where it does not define it_log_all or end_log_all, its log_all, or else its log_step, log_energy and log_bond_dims. The run returns. dmrg_logger itself, and no logger at all, do nothing. A class derived in C++ from dmrg_default_logger is called in the same way.",
  "every set of methods the class may define; every DMRG run, dense or with conserved quantities, of any number of sweeps; every depth of the stack.",
  "a test with one class that defines it_log_all and end_log_all passes; the classes for which the run never returns kill the test, and the number of calls depends on the number of sweeps.",
  ["python_binding/algorithm.cpp: py_default_logger, register_loggers, init_algorithms", "include/dmrg_logger.h: dmrg_logger, dmrg_default_logger", "sources/dmrg.cpp: dmrg"])
p("C120", "Operators between tensors and numbers mean the same on both sides, in C++ and in Python",
  "t op x and x op t, for a block tensor t, a number x and op one of +, -, *, / and the six comparisons, are the tensor of the shape of t whose stored elements are those of t combined with x in that order, in C++ and in Python; in Python the operators between two tensors do what they do in C++, and an operand that is neither raises TypeError.",
  "every conserving tensor, every number, every operator, both orders of the operands.",
  "the order of the operands and the kinds of operands multiply; a test of one operator and one order says nothing of the others, and which method the interpreter calls depends on both classes.",
  ["include/blockTensor/btensor.h: operator+, operator-, operator*, operator/, greater, less, le, ge, eq, not_equal and the comparison operators", "python_binding/quantt.cpp: class btensor, __mul__, __div__, __gt__ ...", "python_binding/utilities.h: Cast_Scalars, wrap_scalar"])
p("C121", "Writing into one tensor leaves the others as they are",
  "An assignment to an element of the tensor of one site of a Hamiltonian made by the library changes that element and no element of the other sites; a block tensor made from a dense tensor keeps its values when the dense tensor is changed afterwards.",
  "every length, every site, every element and value, every parameter of the Hamiltonian, every dense tensor and block structure, every later state of memory.",
  "sharing of memory shows only when something is written later, and then in another tensor than the one written to; tests of values never see it.",
  ["sources/models.cpp: Heisenberg, Hubbard", BT + ": from_basic_impl, from_basic_tensor, from_basic_tensor_like"])
p("C122", "Eigenvectors of an operator with several indices",
  "eigh(A, split) of a hermitian block operator returns eigenvalues without charges and eigenvectors with the leading dimensions of A and one more; both obey their conservation rules, the eigenvectors are orthonormal, and A[e, e'] is the sum over k of u[e, k] d[k] conj(u[e', k]). With a tolerance or limits the largest eigenvalues are kept.",
  "every group of charges, number of leading dimensions, section structure and entries; every dense solver that decomposes hermitian matrices; every tolerance and limits.",
  "the result depends on grouping, sorting and separating the dimensions for all section structures together with the order of the charges; the tests use one matrix.",
  [BL + ": eigh, truncate, truncate_impl, compact_dense", BT + ": reshape, reshape_as, shape_from"])
p("C123", "The couplings of the model Hamiltonians may be given in any element type",
  "Heisenberg(J, L) and Hubbard(U, mu, L) give the Hamiltonian of the numbers passed to them, whether these are integers, real or complex numbers, tensors or Python numbers.",
  "every length of at least two; every integer of every width, every real and complex number, and for Hubbard every combination of the two types.",
  "the operators are 8-bit integers that a coupling without dimensions does not widen, so whether the entries are right depends on the value and the type of both couplings; the tests use small ones.",
  [MO + ": Heisenberg, Heisenberg_impl, Hubbard, Hubbard_impl", OP + ": pauli, fermions", "python_binding/operators.cpp: init_operators"])
p("C124", "The bonds of a DMRG run obey the limits in its options",
  "Moving the center of a chain makes no bond larger. With dmrg_options whose minimum_bond is not above maximum_bond, in a dense DMRG run no bond of the state returned, nor of a state passed to the logger, is larger than maximum_bond. When minimum_bond is above maximum_bond the minimum wins, which is what Python's dmrg_options(max_bond=m) gives for every m below 4. In the block search an update keeps within the larger limit when no two values at the bond coincide; values that coincide with the last one kept are kept too, so that the limit can be exceeded.",
  "every chain, Hamiltonian, cutoff, criterion, number of sweeps and every pair of limits, with a cutoff below one if the minimum is 0; every update regular as in C73.",
  "the limits act inside every truncation of every sweep and the last move of the center comes after all of them; the tests only use limits far from the bonds that occur.",
  ["include/dmrg_options.h: dmrg_options", "python_binding/algorithm.cpp: dmrg_options", "sources/dmrg.cpp: dmrg, dmrg_impl, two_sites_update", "sources/LinearAlgebra.cpp: compute_last_index", "sources/MPT.cpp: MPS::move_oc"])
p("C125", "Chains that share tensors: who sees a change",
  "In a program over MPS variables, constructions, copies, moves, assignments, swaps, the modifiers of the vector, move_oc, conversions of the type and assignments x[p] = y[q] change no variable but those they name, whatever tensors the variables share. An operation in place on the tensor of one site (x[p].mul_(2), x[p].index_put_(...)) changes that site and no other site of any chain; this holds in programs that neither copy or convert a chain into another, nor copy a site, nor build a chain of several sites from one tensor.",
  "every program of these statements, every svd and every operation in place that keeps the sizes.",
  "which sites share a tensor depends on the whole history of the program; the tests look at one chain at a time.",
  ["include/MPT.h: vector_lift, MPS", "sources/MPT.cpp: MPS::move_oc"])
p("C126", "A number is added to a block tensor whatever the types of both",
  "full(shape, rule, c, opt) and full_like(t, c, opt) give c at every entry that the selection rule allows, in the type of the options, or of t if they name none. t.add(c, alpha), t.add_(c, alpha), t.sub(c, alpha) and t.sub_(c, alpha) change every allowed entry by c*alpha and no other, for numbers of every type, as products with numbers do.",
  "every block tensor, number, factor and element type (integer, real, complex; short and long).",
  "the conversion depends on the types of the tensor and of the number and on its value; tests see single pairs.",
  ["sources/btensor.cpp: full, full_like, factory_wrap, Scalar_mul, btensor::add(Scalar, Scalar), btensor::add_(Scalar, Scalar)", "include/blockTensor/btensor.h: btensor::sub, btensor::subtract, sparse_zeros_like"])
p("C127", "Products and quotients in place with a number",
  "t.mul_(c) multiplies every entry by c if the type of the number is not above that of t, in the order integer, real, complex; t.div_(c) divides every entry by c if the type of t holds the quotients. Otherwise they throw and leave t as it was. The element type of t does not change.",
  "every block tensor, number that is not zero for quotients, and element type (integer, real, complex; short and long).",
  "which conversions throw depends on the types of the number, of the tensor and of each of its blocks; tests see single pairs.",
  ["sources/btensor.cpp: btensor::mul_(Scalar), btensor::div_(Scalar)"])
p("C128", "Conversions between trains, states and operators",
  "In a program that turns MPT variables into MPS and MPO and back, by copy or by std::move, each MPS is empty or a linked chain of rank three tensors with its orthogonality center inside and each MPO empty or a linked chain of rank four, however the program ends. A state or operator turned into a train and back is what it was; a copy changes nothing but its target, a move also empties its source. When a conversion throws, every variable is as it was before that statement. The same for block tensors.",
  "every program of conversions, constructions from iterators and changes of the trains, with any number of variables and any tensors.",
  "what a variable holds depends on the whole program; no test moves a train or looks at it after an exception.",
  ["include/MPT.h: MPS(const MPT&), MPS(MPT&&), MPO(const MPT&), MPO(MPT&&), MPS::operator MPT, MPO::operator MPT, MPS(const_iterator, const_iterator)", "include/MPT.h: bMPS, bMPO", "include/property.h: property"])
p("C129", "The decomposition that is asked for is the one that is computed",
  "svd(t) and eigh(t) of a block tensor, with the flags some, compute_uv and upper if they are given, decompose the matrices made of the last two dimensions with these flags; svd(t, split) and eigh(t, split) decompose the tensor seen as a matrix whose rows are the first split dimensions; with a tolerance, limits and a power they drop the smallest values accordingly, the power being 2 for singular values and 1 for eigenvalues unless it is given, at least one value kept and no upper limit unless limits are given. The same in Python, with arguments by position or by name; a call that fits no function raises TypeError.",
  "every tensor, every decomposition of a matrix, every value of the arguments, in C++ of the types bool, BOOL, int, size_t, double and Scalar, in Python of any numbers.",
  "which of the seven functions named svd runs depends on the types of the arguments; tests call the functions with a few literals only, and none calls them with flags or from Python.",
  ["include/blockTensor/LinearAlgebra.h: svd, eigh, BOOL", "sources/btensor_linalg.cpp: svd, eigh", "python_binding/linalg.cpp: init_linalg_qtt", "python_binding/utilities.h: wrap_scalar, Cast_Scalars"])
p("C130", "truncate in Python stores the truncated factors in the tensors it is given",
  "quantit.linalg.truncate(U, d, V, max, min, tol, pow) leaves in the three objects the truncated factors: d holds the values that are kept, the product of the objects is the sum of the terms of these values, and no other object changes. Applied to the result of svd(A, split) it gives what svd(A, split, tol, min_size, max_size, pow) returns. truncate(e, S, ...) does the same for an eigenvalue decomposition. A call that raises an exception leaves its arguments as they were.",
  "every set of objects, every decomposition stored in them, every limit, tolerance and power, with one object given once or twice.",
  "no test calls truncate from Python; which objects are lost depends on whether an exception is raised after they have been moved from, and on whether two arguments are the same object.",
  ["python_binding/linalg.cpp: truncate", "sources/btensor_linalg.cpp: truncate, truncate_impl", "include/blockTensor/btensor.h: btensor(btensor&&)"])
p("C131", "Methods in place act on the tensor they are called on, also in chains",
  "In Python a method of a block tensor whose name ends with an underscore (mul_, div_, sqrt_, abs_, pow_, permute_, transpose_, cval_shift_, t_) changes the tensor and returns it: t.f_(...).g_(...) leaves t as the statements t.f_(...) and t.g_(...) do. A method that changes every element changes the elements of the tensor and nothing else.",
  "every tensor, every list of such calls, every other tensor there is, with or without shared blocks.",
  "a method that returns a copy passes every test of one call; which later calls of a chain are lost depends on the methods and on what the copy shares with the tensor.",
  ["python_binding/quantt.cpp: t_, pow_, sqrt_, abs_, div_, mul_, permute_, transpose_, cval_shift_", "sources/btensor.cpp: mul_, permute_, cval_shift_"])
with open(os.path.join(os.path.dirname(__file__),'..','properties.jsonl'),'w') as f:
    for x in P: f.write(json.dumps(x)+"\n")
print(len(P))
