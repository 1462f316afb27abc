# Formal model of QuantiT: design

The code in /repo is read as text and modelled in Lean 4 under `lean/Verif/`.
Nothing is generated from the C++; each definition cites the file and lines it models.

## Layout

* `Verif/Base.lean` - outcomes of a C++ call: a value, a thrown exception (with its class), or undefined behaviour (`Res`).
* `Verif/Model/*.lean` - the model, function by function.
* `Verif/Spec/*.lean` - small specifications written without the model's helpers.
* `Verif/Lemmas/*.lean` - helper lemmas.
* `Verif/Props/*.lean` - the property theorems (C01, C02, ...), each with an `example` showing that its hypotheses are met.

## Conventions

* Exceptions and undefined behaviour (UB) are distinct outcomes. `Res α = Except Fault α`.
* 16 bit arithmetic of the conserved quantities is modelled exactly (wrap-around). Sizes and indices (`size_t`, `int64_t`)
  are `Nat`/`Int`, except where a property is about unsigned wrap-around (C38, C49).
* Block tensors are polymorphic in an abelian group of charges; that the C++ quantities form such a group is C01-C04.
* Numbers stored in tensors are elements of a commutative (semi)ring or of ℝ: floating point rounding, dtypes, devices,
  strides, autograd and parallelism are not modelled. libtorch is a parameter with its documented meaning.
* Where the code violates a property, the negation is proved with a concrete witness (`Cxx_..._fails`) and the strongest
  true form is proved with suffix `_partial`.

## Trusted base

Lean 4.33.0's kernel; the axioms `propext`, `Classical.choice`, `Quot.sound` (checked with `#print axioms`); the
faithfulness of the hand-written model to the cited lines; for library calls (std::sort, std::lower_bound, torch kernels)
their documented contracts.

## What is modelled and what is not

Every definition under `Verif/Model` cites lines. By file of /repo:

| file | modelled in | not modelled |
|------|-------------|--------------|
| include/Conserved/quantity.h, Composite/{quantity_impl,cquantity}.h | `Quantity`, `VecStore` | formatting, hashing of type names, Python glue; `vquantity` beyond `quantity_vector` |
| Composite/quantity_vector(_impl).h, any_quantity.cpp | `Quantity`, `VecStore` | allocation; iterators are positions |
| include/blockTensor/flat_map.h | `FlatMap` | allocators, reverse iterators, `swap`, `reserve`; members that are never instantiated (`operator=` of an initializer list, `emplace`) are modelled as meant although they may not compile; what an exception leaves behind is in `Failure` |
| include/blockTensor/btensor.h, sources/btensor.cpp | `BTensor`, `BTensorOps`, `View`, `Reshape`, `Tensordot`, `Broadcast`, `Elementwise`, `Compare`, `Packed`, `Bmm`, `Alias`, `Shared`, `InPlace`, `PowInPlace`, `SelfShift`, `Failure` (exceptions in the middle of a call), `Types` (element types) | devices and `to(...)`, booleans and half precision, overloads of the factories that only forward, formatting |
| sources/btensor_linalg.cpp | `Linalg`, `BlockTruncate`, `SvdDense`, `Types` | the dense kernels `torch::linalg::svd`, `eigh`, parameters with their documented meaning |
| sources/LinearAlgebra.cpp | `Truncate`, `SvdDense` | `eig`, overloads that only forward |
| sources/tensorgdot.cpp, dimension_manip.cpp | `DenseTools`, `Strided` (in-place and `out` forms on strided memory) | `slice` |
| include/MPT.h, sources/MPT.cpp | `Mps`, `ChainStore`, `ChainRefs`, `BlockMps`, `Network`, `BlockNetwork`, `RandomMps`, `RandomDense`, `SectorStart`, `Coalesce` | the conversion of elements by `to`, iterators as such |
| sources/models.cpp, operators.cpp | `Models`, `BlockModels`, `DenseTools`, `Coalesce`, `ChargedOps`, `CouplingTypes` | couplings of unsigned, boolean and half precision types; compressed block Hamiltonians with a coupling that is exactly zero |
| sources/dmrg.cpp | `Dmrg`, `DmrgDense`, `Lanczos`, `TwoSite`, `CutDmrg`, `BlockDmrg`, `BlockCut`, `BlockNetwork`, `SectorStart`, `Stopping`, `Convert` | gradients; timings |
| dmrg_logger, dmrg_options | events of `Dmrg`, `Logger`, `PyLogger`, `CppLogger`; `Options` | string output of the options |
| python_binding/networks.cpp, quantt.cpp | `Python`, `Calls` | the parts that only forward; docstrings; conversions by pybind11; conserved.cpp, which only forwards; linalg.cpp but for the choice of `svd` and `eigh` (`Calls`); and what `PyLogger`, `Options` and `CouplingTypes` leave out of algorithm.cpp and operators.cpp |
| main.cpp, torch_formatter, groups.cpp, numeric.h, property.h, templateMeta.h, tests | - | output, compile-time helpers, benchmarks and tests |

Throughout: exact arithmetic instead of floating point; no memory exhaustion; no concurrency (the library has none of its own besides torch's
parallel loops, taken as sequential); storage sharing only in `Alias`, `Shared`, `Strided` and `ChainRefs`, elsewhere tensors are values.

## Plan per property

| id | modelled | method |
|----|----------|--------|
| C01 | `C<N>` stored in 16 bits | arithmetic; negation for N > 32768 |
| C02 | signed constructor | arithmetic on truncated `%`; negation at -kN |
| C03 | `Z` as wrapped int16 | modular arithmetic |
| C04 | composite value as list of typed components | induction on the component list |
| C05 | `distance2` | arithmetic, induction |
| C06 | `any_quantity` assignment | case analysis; negation for different types |
| C07 | `quantity_vector::permute` | list induction |
| C08-C12 | `flat_map` over lists of pairs, every method incl. in-place merge | invariant + refinement to `K → Option V` by induction on histories |
| C13-C16 | `btensor` structure, odometer, factories, block access | invariant over operation histories |
| C17-C19 | element decomposition, dense conversion | induction on section sizes |
| C20 | `permute`, `transpose`, and `permute_`, `transpose_`, `swap` in `Model/InPlace` | index algebra |
| C21-C22 | `add_` via flat_map merge | corollary of the merge theorem; negations |
| C23-C25 | `tensordot` block algorithm | sum over blocks; fuel-free termination argument; negation for rank 0 |
| C26 | `reshape`, `reshape_as` | row-major flatten/unflatten bijection |
| C27-C29 | charge manipulation | group algebra; negation for cval_shift |
| C30-C33 | shape_from, view, eye | list induction; negation for trailing fixed index |
| C34, C60 | `any`, `item` | list induction; negation |
| C35 | find_selection_rule | list induction |
| C36 | mul/broadcast | list induction |
| C37-C39 | dense truncation | loop invariant over an ordered field |
| C40-C43 | block factorisations (index and charge bookkeeping; the dense SVD itself is a parameter) | induction; negations |
| C67 | `eigh` (entries of the factors; the dense solver is a parameter) | as C66, with equality of row and column ranges |
| C68 | `truncateSvd` over `truncateImpl`; the sums over the bond are split section by section and compared; error formula from the orthonormality of C66, for any number of dimensions from C79; that it is the smallest error from Eckart-Young for values in any order |
| C69 | `tdot` (torch::tensordot), `contractOp`, `contractNorm`; every layer (site, chain, pair of sites) is a kernel between bond indices, one lemma composes kernels (`kern_comp`), chains by induction |
| C70 | `selectShape`, `eyeEdge`, `edgeShape`, `envEdges`; induction over the list of marks |
| C71 | `envLeft`, `envRight`, `twoSite`, `hamil2site`, `leftEnvs`, `rightEnvs`; kernels of C69 composed around the pair |
| C72 | `Spec/Energy.lean`; Gram matrices of the sites left and right of the pair by induction, then C71 |
| C73 | `Model/TwoSite.lean`: `lanczosBlk`, `twoSitesUpdateBlk`, `blkUpd`; refinement to the abstract Lanczos step of C54 through the vector space of two-site tensors, C71 and C72 |
| C74 | `blkDmrg` put into the loop of C49; invariant "fit, closed, canonical, norm one" over tours, energies by C73, final move by C45 |
| C75 | `BN.contractOp`, `BN.contractNorm`: the loops of C69 with the block `tensordot`; refinement of each step to the dense one (`Rep`), then C69 |
| C76 | `BN.leftEnvs`, `rightEnvs`, `twoSite`, `hamil2site`; same refinement, then C71 |
| C77 | `eyeEdge`, `onesLike`, `edgeShape`, `contractNormDefault`, `contractOpDefault`; what the edges hold by C31–C33 and C15, then C75 |
| C78 | `envEdges`; same, then C76 |
| C79 | `svdSplit`: reshape to a matrix, C66, then C31 to split the rows and columns again; orthonormality by reindexing configurations |
| C80 | `Model/BlockMps`; each step is C79 and one contraction (C23), which leaves the contraction of two neighbours unchanged; induction over the steps; for any chain, zero states included, each step is done or the center tensor stores no block (`Props/BlockMoveAll`) |
| C81 | `Model/BlockDmrg`: `lanczosB`, `eig2x2B`, `twoSitesUpdateB`, `updB`; a block tensor stands for a dense one (`Rep`), every step of the update keeps that, so the block update refines the dense one of C73 as long as the numbers of the 2x2 matrix are stored |
| C82 | `bDmrg` is an instance of the sweep of C46; induction over the updates with C81 as the invariant |
| C83 | `toBMPO` on top of `fromBasic` (C19) and `basicCreateView` (C30); `allclose` with its tolerances; entry by entry, the block norm as a sum of squares |
| C84 | `heisenbergBlocks`, `hubbardBlocks`; the entries of the channels of C55, C56 against the charges of the bonds, then C83 and the operators of C55, C56; compressed by C104, every charge of a bond being reached from the waiting state |
| C85 | `Model/SvdDense`: reshape to a matrix, `compute_last_index` (C37) on its values, slices; Eckart-Young (`Lemmas/EckartYoung`) for sums of column-row products |
| C86 | `Model/CutDmrg`: the update of C73 with the truncated SVD of C85; overlaps of chains around a pair are inner products of two-site tensors, so Eckart-Young gives optimality; `Lemmas/Rayleigh` bounds the energy by the overlap |
| C87 | induction over tours with the record of each update (`Lemmas/Descent3`); every tour visits every pair, which bounds all bonds; errors of the updates add up |
| C88 | `Model/Bmm`: check, shapes, the loops over rows, columns and matches | the loops skip no pair with a common batch and contracted section; the block at each index is the sum over the matches; then sums over sections as in C13 |
| C89 | `Model/Bmm`: `squeeze(dim)` is a view (C30) at the only position, `squeeze()` a `reshape_as` (C26) | a dimension of one element changes neither row-major positions nor sizes |
| C90 | `Model/Alias`: tensors hold addresses into a memory of blocks; `Spec/Alias`: programs over tensors as values | invariant over programs: addresses exist and belong to one index; the merge functors are run on the memory after the merge has decided which applies where |
| C91 | same; the reference counts that `add_(btensor&&)` reads are counted over all variables | same invariant; exact content of every address after a merge |
| C92 | `Model/Compare`: the three loops of `allclose`, torch's allclose on blocks, `test_same_shape`; `Spec/Compare`: close numbers, close entries | the loop decides a condition on the two maps at every index, by induction; positions of a block are elements |
| C93 | `Model/Compare`: `full_like` followed by a sum | C15 and C21 |
| C94 | `Model/Compare`: `std::transform` into a list, undefined past its end | unfold |
| C95 | `Model/ChainStore`: a list of MPS variables and the statements on it; `Spec/ChainStore`: programs, and what they mean for the states | invariant over programs, pairing each variable with the state it should have; C44 and C45 for the steps |
| C96 | `Model/RandomDense`: random_MPS and the overload of dmrg that uses it; `cutDmrg` of C86 for the run | one update without canonical form or norm (`cold_update`); the first sweep reaches the right end with every site left of it orthonormal, so from there on the updates are those of C86 |
| C97 | `Model/BlockCut`: the block DMRG of C81 with the truncating SVD of C40 | `SemiCanonical`: orthonormal up to elements of a bond that both neighbours leave unused; the update keeps it (`cut_chain`); overlaps and the values of a two-site tensor by Eckart-Young (`schmidt`); runs by the induction of C87 |
| C98 | `Model/VecStore`: `any_quantity_vector` as an optional pair of a type and a list, one definition per member function | programs over a store of such lists simulate programs over plain lists (`Spec/VecStore`), induction on the program; one type per list as invariant |
| C99 | `Model/Elementwise`: one definition per function, over `mapBlocks` and `broadcastOp`; truth values as 0 and 1 | the value at every element by whether its block is stored (`Spec.Held`); the induction of C36 restated for any operation |
| C100 | `Model/Packed`: the three packed arrays, every query on them with its offset, `check_tensor` and the two block counters | the arrays are the concatenated dimensions; each query against the list it was built from; counts against `Set.ncard` of the allowed indices by the odometer that lists block indices; `C100_refines` ties the packed arrays to the nested lists of the other models |
| C101 | `Model/Python.step`: the methods of `python_binding/networks.cpp` with their `size_t`/`int` conversions, against `Spec/Python.pyDo`, lists after the Python reference | one operation by cases, with modular arithmetic for positions and slices; histories by induction |
| C102 | `Model/Python`: `blocks.__setitem__`, `inverse_cvals_`, `tensordot` with a number | the checks against `Allowed`; contraction by `C23_returns` with the dimension lists worked out |
| C103 | `Model/SectorStart`: the random block MPS for a Hamiltonian with its normalisation, and `dmrg(hamiltonian, qnum, …)`; runs are those of `Model/BlockCut` | invariant of every update (fits the Hamiltonian, same outer dimensions and total rule, no empty dimension) by the shape of what each step returns; an amplitude other than zero follows a path of stored blocks, whose rules add up |
| C104 | `coalesceB`: one permute, SVD, product and contraction per bond as in `bMPO::coalesce`; one turn keeps the product of two neighbours (C79 with the truncation at tolerance 0 proved to remove nothing), induction on the chain with the charges in reach as invariant; independence from the orthonormal columns scaled by positive values |
| C105 | `LogSimple`, `LogSweeps`: what each logger does with each event; writing outside the lists is undefined behaviour | induction over the iterations heard, from the log of C52 |
| C106 | tensors in memory (sizes, strides, offset); `reshape` as any function that keeps torch's contract | a reshaped view has the same cells; a layout that is not evenly spaced has no such view |
| C107 | `fermions(shape)` and `pauli(shape)` on top of the models of `find_selection_rule`, `set_selection_rule_` and `from_basic_tensor_like` | the charge of every non-zero entry is computed from the sections of the shape; C35 gives the rule, block conversion gives the entries |
| C108 | `add_`, `basic_index_put_` and `broadcast_operation_` with the state of the tensor at the moment of an exception; the merge of `flat_map` cell by cell, with a collision functor that may throw | simulation of the merge by the total merge over optional values, whose invariant excludes a missing value; for the products, no block is met twice; counterexamples where the checks are too weak |
| C109 | `cval_shift_` with a reference that is read at every use | loop invariant: what the reference shows is constant unless it points into the range, where the loop is split at it |
| C110 | the same functions with the type of the matrices that `compact_dense_single` makes, `epsilon` of the declared type, the types of the factors | `reshape` commutes with a function of the entries, so that the decomposition of a tensor is that of its real part; then C79, C68, C67 |
| C111 | block tensors with a declared type and a type per block; type promotion and conversion of torch; `to_dense`, `from_basic_tensor`, `mul`, `div`, `add`, `tensordot` | induction on the history of calls: one type, and every entry a value of it |
| C112 | `dmrg` (C74, C96) applied to the output of `Heisenberg` and `Hubbard` (C55, C56) | energies of chains are quadratic forms of matrices over configurations; spectral theorem of Mathlib; the pair term of Heisenberg is twice the exchange minus one, which bounds the spectrum |
| C113 | dense `eigh`, with and without tolerance | reshapes as for C85; assumed of the routine: it decomposes the hermitian matrix of the lower triangle (existence proved from the spectral theorem) |
| C114 | `any_quantity` variables: constructors, assignments, swaps, products with all combinations of moved operands, inverses | simulation of statements by plain charges over integers; induction over programs |
| C115 | block `dmrg` (C82, C97) applied to the output of the block `Heisenberg` and `Hubbard` after `coalesce` (C84, C104) | the matrix of a block chain of rule zero has entries between configurations of one charge only; the block of one charge of a hermitian matrix is hermitian, so it has a lowest eigenvalue that bounds its quadratic form; the chains of a run have the charge of the first |
| C116 | `dmrg(hamiltonian, qnum, options)` for block tensors: the random chain (C48, C103), then the sweeps of C97 without the canonical form | invariant of a sweep: the sites left of the pair are left-orthogonal apart from unused elements; the update at the last pair makes the chain canonical and of norm one, from there C97 applies; charges by C91 |
| C117 | the two convergence tests of `dmrg_impl` and the initial energy 100000, in the loop of C35 | while the loop goes on the energy falls by the criterion or more (C74, C82, C87, C97: it never rises by more than the truncation loses), and it is bounded below |
| C118 | `btensor::to`, `vector_lift::to`, the guard object of `dmrg` around an arbitrary run, the setter of `dtype` in Python | entries of converted blocks; the two conversions of the guard compose to one |
| C119 | Loggers derived in Python, and in C++ with plain virtual dispatch: virtual methods that look for a method of the class and fall back on the C++ one, with a finite stack; what each event leads to, for every set of methods defined, composed with the log of every DMRG run (C52). |
| C120 | The tables of C++ operators and of Python methods as they are registered, with the dispatch of the Python interpreter (method of the left operand, reflected method of the right one); element by element meaning on stored elements through C99. |
| C121 | References (buffer, sizes, position of every element) and a memory; the fill constructor and the edge slices of the Hamiltonians and the blocks of `from_basic_impl` on references; reading after an assignment computed for every pair of sites. |
| C122 | `Model/EighSplit`: `eigh(A, split)` as the reshaping of C26, the decomposition of C43 and C67, and the separation of C79 | the factors of a matrix carried through the fused index (`unfuse_eq`, `sum_fuse`); stored blocks carried through `retile` |
| C123 | `Model/CouplingTypes`: the two Hamiltonians with the type promotion of a coupling without dimensions and the wrapping of 8-bit integers | the tensors equal those of C55 and C56 for some couplings, and those determine the couplings (`hubbard_inj`) |
| C124 | `Model/Options`: `dmrg_options` with its constructors and the Python defaults, and the search that takes them | one step of `move_oc` makes neither bond larger (sizes of the SVD), so neither does a move; every pair is updated in a sweep, the last move included |
| C125 | `Model/ChainRefs`: chains as lists of handles on cells of a memory, statement by statement | simulation by chains of values, with the invariants that every handle is on an existing cell and, without copies, that no cell has two handles |
| C126 | `Model/Numbers`: `full_like` with the conversion of the number, `Scalar_mul`, sums with a number in place and not | C15 for the loop over the blocks, C111 for the sum; a loop whose factory throws is compared with one that does not |
| C127 | `Model/Numbers`: `mul_` and `div_` with a number, block after block, with the exception torch throws for a type that cannot hold the product | induction over the blocks, case analysis of the types |
| C128 | `Model/Casting`: variables of the three chain types, conversions by copy and by move with the checks of the constructors after the move, constructions from iterators | invariant by induction on programs, case analysis |
| C129 | `Model/Calls`: the overloads of `svd` and `eigh` with the ranks of the conversions of their arguments and the choice of the best, the overloads of the Python module with keywords, defaults and the two passes of pybind11 | case analysis on the types of the arguments, refinement to the function asked for |
| C130 | `Model/InPlaceTruncate`: the objects of the interpreter by identity, the moves out of and into them around `truncate` (`Model/BlockTruncate`) | refinement to the C++ function, composed with C68 and with the truncated `svd` |
| C131 | `Model/PyChains`: tensors whose elements are places in memory, objects by identity, methods that return a copy or the object, chains and statements | induction on the chain, comparing it with separate statements |
| C66 | `svd` (entries of the factors; the dense SVD is a parameter with its algebraic laws as hypotheses) | sums over the new bond section by section |
| C44-C45 | MPS/MPO construction (block chains of copies: `Model/InPlace`), move_oc | induction; SVD as a parameter with its contract |
| C46-C48 | random string and random block MPS | loop invariant for every random choice |
| C49-C52 | DMRG control flow, environments, logger protocol | walk invariant by induction on steps |
| C53-C54 | 2x2 eigenproblem and Lanczos step over ℝ | real algebra |
| C55-C57 | model MPOs and fermion operators | induction on chain length in a ring |
| C58-C59 | dimension_manip, tensorgdot scaling | list induction |
| C61-C62 | flat_map bounds and equality | induction on the sorted list |
| C63-C64 | anynan, sum | list induction |
| C65 | basic_index_put_ | list induction; negations for trailing fixed dimension and absent block |

## Disagreements between code and property found while proving

Each is a theorem `Cxx_..._fails` about the model, with the witness in its statement.

* C15: an empty dimension makes the block enumeration read outside the charges.
* C16: `block(idx)` accepts indices outside the grid, and one of the wrong length runs off the array.
* C19, C35: sizes of a dense argument are not compared with the shape.
* C20: on a tensor without blocks a repeated dimension is accepted; a dimension out of range is UB.
* C21: `add_(b, alpha)` multiplies by alpha the blocks of `a` that precede every block of `b`.
* C22: the number of sections is not compared before adding.
* C23: sizes of contracted sections are not compared. C24: a contracted dimension beyond the rank is read out of bounds.
* C25: `tensordot` with a rank 0 operand that holds a block never ends.
* C26: an empty index group is read out of bounds.
* C28: `cval_shift` moves the rule the wrong way.
* C30: fixed indices after the last kept dimension are ignored by views. C31: entries below -1 accepted.
* C34: `any()` looks at the first block only. C64: `sum()` of a tensor with a non neutral rule is not conserving.
* C65: `basic_index_put_` leaves old entries where the value has no block.
* C38: the ascending truncation keeps `min_size - 1` values (or throws), and never looks at the tolerance when `max_size`
  exceeds the number of values. C39: `eigh` with a tolerance truncates according to the eigenvectors; the two argument
  `truncate` returns its arguments swapped.
* C58: `reverse` returns twice as many entries. C59: `alpha` and `beta` of `tensorgdot` have each other's documented role.
* C44: an empty chain, or a tensor with fewer than three dimensions, is read out of bounds by the construction checks; block
  chains are accepted when charges match although section sizes differ.
* C51: after `dmrg` the reported orthogonality center is one site left of the true one unless the sweeps start at the right
  end, or at the left end with dense tensors. C52: the number given to `end_log_all` is the limit, not that of the last
  iteration, when the limit is reached.
* C54: the local update of an exact eigenvector whose energy is not negative returns the zero vector. A residual smaller than 1e-15 is not
  normalised although the 2x2 matrix is built as if it were: the vector returned has a norm below one, and the energy returned can be
  below the whole spectrum.
* C56: the comment above `Hubbard` gives the hopping operators a minus sign; the code, and its operator, have a plus sign.
  `pauli()` returns as lowering operator the matrix unit `[0][1]`, which raises `Sz = diag(1, -1)`.
* C47: the search for a string changes one site at a time and only when that comes closer to the total. With the charges 0, 3
  and -2 on two sites and the total 1 it starts at `0 + 0`, finds nothing closer, and throws for any number of passes. A bond
  dimension of zero, or a uniform chain of no site with a neutral total, is undefined behaviour.
* C36: with one section of size n ≠ 1 in the tensor of larger rank (the receiver for equal ranks) against one single element,
  the sizes of the new dimension are taken from the single element: `mul` throws invalid_argument, and `mul_`, which does not
  check its result, leaves a block larger than its section. `mul_` with an argument of larger rank reads and writes block
  indices out of bounds.
* C42: `svd` throws invalid_argument when the row or column dimension has size zero. With `some = false` the new bond is given
  the larger of the two sizes of each matrix for both factors, which is wrong for one of them if the matrix is not square.
* C43: `eigh` subtracts the charge of the first column from the selection rule of `U` where it should add it back: any stored
  block then breaks the rule and invalid_argument escapes, unless twice that charge is neutral.
* C67: `compact_dense_single` places columns in the order in which they are met and rows in increasing order. For `svd` that is
  harmless; `eigh` of a hermitian tensor with missing blocks diagonalises another matrix.
* C40: block truncation keeps the values above the smallest value to keep, less twice the precision. Degenerate values beyond
  `max` therefore stay, and if that smallest value is zero all zeros go, whatever `min` is. `remove_unit_blocks` skips a block
  without looking at the one after it and forgets the last: unwanted blocks stay if two are neighbours or the last block is
  unwanted, and `[unwanted, wanted, unwanted]` becomes `[wanted, unwanted]`, out of order. `truncate` of an eigenvalue
  decomposition moves the eigenvalues away before reading them and always throws an index error.
- **C13** The structural invariant holds after every finite history of calls (`Reachable` in Props/History.lean), but the code
  does not enforce it: `block(index)` leaves an undefined block behind on a mere access, an index beyond the sections or a
  tensor of another size is accepted, a factory on a dimension without sections fills a block outside the grid, `add` does not
  compare how sections are divided among dimensions, views that fix a trailing dimension keep foreign blocks, and
  `cval_shift_` moves the rule the wrong way.
* C70: `shape_from(torch_shape, inds)` writes through its output iterator before it looks at the mark, so a dimension that is
  not marked after the last marked one is written past the end of the list. `contract(a, b)`, `contract(a, b, obs)` and
  `generate_env` of dense chains select the first of several dimensions and always do that.
* C77: the default edges of `contract(a, b)` for block chains take their rule from the first element of the other dimensions of
  the end tensors of `a` and of `b`. If these differ — for instance because the sections of a bond come in another order — the
  edge has no block and the result is 0 without any error (`C77_fails`: overlap 5, result 0).
* C77, C78: `edge_shape_prep` passes `Shape.inverse_cvals_()` and `Shape.shape_from({0})` to one call: the first changes `Shape`
  in place and C++ does not say which is evaluated first. In one of the orders the edges are zero as soon as an end of the
  operator has a charge that is not its own opposite (`C77_order_fails`, `C78_order_fails`).
* C79, C80: `svd(tensor, split)` of a block tensor that stores no block makes a bond without sections and then reads its first
  section in `shape_from` (`C79_empty_fails`). So `bMPS::move_oc` on a zero state without blocks is undefined behaviour (`C80_zero_fails`).
* C81: if the two-site tensor and its image under the effective Hamiltonian share no block (a product state and a Hamiltonian without
  diagonal terms), `a0` stores no block and `psi_ip -= state * a0` changes the sign of `psi_ip` (the defect of C21). The 2x2 matrix
  then has the wrong sign off its diagonal, and the energy returned is strictly below that of the state returned (`C81_disjoint_fails`).
  If the image stores no block at all, `any` of a tensor without blocks is undefined and `item` of it throws (`C81_empty_fails`), so
  `dmrg` throws from an eigenstate of energy zero such as a fully polarised state.
* C84: `Heisenberg(J, length, phys_shape)` gives the bonds the charges `0, p0, p1, 0, 0` of the states, where the operators carry the
  differences `p1 - p0` and `p0 - p1`. It throws `invalid_argument` for every coupling unless `2 p0 = p1` and `2 p1 = p0`
  (`C84_heisenberg_fails`), so for a conserved magnetisation +1, -1. `Hubbard(U, mu, length, phys_shape)` throws unless `2 p0 = 0` and
  `p0 + p3 = p1 + p2` (`C84_hubbard_fails`): the particle number must be counted from the empty state.
* C83, C84: `to_bMPO` drops blocks of norm up to 1e-4 and then compares with a tolerance of 1e-8, so that small couplings throw
  (`C84_small_heisenberg_fails`, `C84_small_hubbard_fails`).
* C88: `bmm` finds the shapes of its result with `shape_from(…0…)`, which rejects a dimension without elements: batches of matrices with
  zero rows or columns throw `invalid_argument` (`C88_empty_fails`).
* C89: `squeeze()` and `squeeze_()` call `reshape_as` in its default mode, which compares charges block by block. They throw
  `invalid_argument` whenever the charges of the removed dimensions do not add up to zero, while `squeeze(dim)` moves the charge into the
  selection rule (`C89_squeeze_all_fails`).
* C90: `add(btensor&&)` (called for `a.add(b.mul(2))`, `a.sub(std::move(b))`) copies `*this` without cloning its blocks and then adds in
  place: the constant operand is overwritten (`C90_add_temporary_fails`). It also reads the first block of the result, which need not
  exist (`C90_add_temporary_empty_fails`).
* C91: `a.add_(std::move(a), alpha)` empties the target first and gives `alpha*a` (`C91_self_move_fails`).
* C92: `allclose(a, b)` compares a block that only `b` stores as `allclose(b_block, 0)`, without the relative tolerance, although `b` is
  the reference (`C92_allclose_fails`); `test_same_shape` compares the packed lists of sections, so a row and a column of sections can be
  equal (`C92_shapes_fails`).
* C94: `operator/(Scalar, btensor)` reserves the list of blocks and then writes to its elements: undefined behaviour for every tensor that
  stores a block (`C94_scalar_div_fails`).
* C95: `pop_back`, `erase`, `clear` and `push_back` of an MPS do not look at the tensors nor at the orthogonality center: with the center on
  the last site, `pop_back(); move_oc(0)` reads outside the chain (`C95_shrink_fails`, `C95_push_back_fails`). `bMPS(begin, end)` does not
  initialise its center (`C95_range_fails`).
* C96: the dense DMRG without a starting state does not normalise or canonicalise the random chain it draws. The first half sweep repairs
  both, but on three sites the first iteration ends with that repair: its energy comes from an eigensolver run on a vector that is not
  normalised. It can lie below the spectrum (`C96_three_sites_fails`), and is what is returned if one iteration is allowed. A
  Hamiltonian with no sites is undefined behaviour (`C96_empty`).
* C97: truncation in the block DMRG leaves unused elements in the bonds, since sections that lose every value are emptied but not always
  removed, and keeps more than `maximum_bond` elements when the value at the limit is repeated. The chain is then canonical only up to
  unused elements, which is what C97 states and what suffices for the next update.
* C98: an `any_quantity_vector` without type (default constructed, or moved from) is not an empty list: copying it, assigning from it, and
  asking its size dereference a null pointer, and it is not equal to itself. `quantity_vector(const std::vector&)` and its rvalue form cast a
  base to a derived class it is not; they are not modelled.
* C99: a comparison is only made inside stored blocks, and is false elsewhere. `t.eq(t)`, `t.le(x)` and `t.ge(x)` are wrong at the elements
  the selection rule forbids when zero satisfies them; `t.pow(0)` is 0 there, and `a.pow(b)` is 0 where `b` has no block. The comment on
  `broadcast_operation` says it is for functions that map 0 to 0, which these do not. Comparing two tensors also adds their charges.
  `pow_(btensor)` hands its two functions to `broadcast_operation_` in the wrong order (btensor.cpp:1744-1749): where `a` must be repeated, its
  one block is raised to every exponent in turn and shared by all results, or torch throws in the middle (`C99_pow_in_place_fails`, `C108_pow_fails`).
* C100: `section_size(i, b)` and the like do not check `b`, so past the last section of dimension `i` they return a section of a later
  dimension. The debug check constructs an exception and does not throw it, and compares with `sections_sizes[i]`, not `sections_by_dim[i]`.
  `check_tensor` compares the number of sections with the length of the sizes array only, so charges may be missing.
  `btensor_compute_max_size` is 1 for a tensor without dimensions even if its rule is not neutral.
* C101: from Python, `erase(first, last)` throws if `first < last` (networks.cpp:133-143, the comparison is reversed) and is undefined for
  `last < first`; `erase(len)` and `pop(p)` are not checked; `pop()` does not return the item; a slice of an MPS has its center at zero.
* C102: `t.blocks[ind] = val` compares as many sizes as `t` has dimensions: a `val` of higher rank is stored, one of lower rank is read past
  its sizes. `inverse_cvals_` is bound to `inverse_cvals()`, so the tensor is unchanged. Not modelled, seen by reading: the setters of
  `dtype`, `device` and `requires_grad` call `to()` and drop its result.
* C103: with `minimum_bond` 1 the random starting state has one configuration; a Hamiltonian that only hops then gives a product sharing no
  block with it, and the update is undefined (`C81_disjoint_fails`).
* C104: `bMPO::coalesce` of a chain without tensors moves an iterator past the end (`C104_empty_fails`). With a cutoff above zero it truncates
  each bond while the tensors to its right are not orthogonal, and it leaves the singular values in the left tensor, so that the values it
  discards do not bound the change of the operator.
* C105: the header of `dmrg_logger` says that the last call of `it_log_all` receives the arguments of `end_log_all`; at the limit of iterations the
  number differs by one (`C52_step_fails`), so that the number of sweeps made is
  `it_num + 1` for runs that converged and `it_num` for the others.
* C106: `tensorgdot_` and `tensorgdot_out` write into `output.reshape(...)`. For an output that cannot be seen as a matrix (a permuted tensor of rank
  three or more) `reshape` is a copy: the result is lost and `output` keeps its old content, without an error. `tensorgdot_out` does not compare the
  sizes of `output` with those of the result. The members `tensorgdot` and `tensorgdot_` of `btensor` (btensor.h:624-626, 1247-1267) have no
  definition in the sources.
* C107: operators.h documents the result of `pauli(shape)` as lowering operator, `Sz`, identity; operators.cpp:50-57 returns `Sz` first. A caller who
  follows the header uses the wrong operator without an error.
* C108: `add_tensor_check` and `shape_compute` accept tensors whose blocks do not fit (btensor.cpp:2230-2238 compares the flattened sections, 992-1021 only
  the numbers of sections); torch then throws in the middle of an in place operation. After `add_` the tensor may keep a block outside its grid (or, with
  moves in flight, empty blocks), after `mul_` some blocks are multiplied, after `basic_index_put_` the slice is half written.
* C109: `any_quantity_cref` is a reference; `t.cval_shift_(t.section_conserved_qtt(d, s), d)` (btensor.cpp:2180-2185, 2215-2222) reads the charge again after
  section `s` has moved: the sections behind `s` and the rule move by twice the charge.
* C110: `compact_dense_single` (btensor_linalg.cpp:134) makes its matrices with `torch::zeros(tensor_size)`, of the default type, and writes the blocks into
  them: `svd` and `eigh` of complex block tensors drop the imaginary parts without an error, and those of double tensors are done in single precision when
  that is the default. `epsilon` (589-611) throws for complex types, so that every truncated decomposition, hence block DMRG and `coalesce`, throws for
  tensors that declare one. The factors are stored in the default type, so that `bMPS::move_oc` of a chain of another type throws in `torch::mm` after it has
  overwritten a site. All theorems on block decompositions (C42, C43, C66-C68, C79-C82, C97, C103, C104) are about the code for real tensors of the default type.
* C111: the declared type of a block tensor is not always that of its blocks: `from_basic_tensor` keeps the type of the values and declares that of the
  options, `div` of integers stores fractions and declares integers, `add` declares the type of the first block. `to_dense()` converts to the declared type, so
  that fractions or imaginary parts are lost.
- C113: dense `eigh` of a tensor that is not hermitian returns, without an error, the decomposition of another tensor; with a tolerance
  the number of values kept does not depend on the eigenvalues: none is dropped below `1/sqrt n`, all but `min_size` from `n` on.
- C114: `x = y` for an `any_quantity` `x` that was moved from (also by `a * std::move(x)`) is undefined, and so is `y = x`.
* C117: the energy before the first sweep is the number 100000 (`dmrg.cpp`), so a run whose first sweep ends within the criterion of 100000
  makes no second sweep. The block search uses a relative criterion, the dense search an absolute one, though `dmrg_options` has one
  `convergence_criterion` for both: a block run on a Hamiltonian whose ground state has energy zero need not settle before the limit of iterations.
* C118: the guard object of `dmrg` notes the options of the first tensor of the Hamiltonian and converts all its tensors to them at the end
  (`dmrg.cpp:78-89`). With a real first tensor and complex ones after it the contraction throws, and the Hamiltonian of the caller has lost its
  imaginary part. In Python `t.dtype = x`, `t.device = x` and `t.requires_grad = x` do nothing (`quantt.cpp:136-144`).
* C119: in Python a logger that only defines log_energy (or any class without end_log_all) makes every DMRG run overflow the stack; with end_log_all alone it is called after every sweep; log_all, log_step, log_energy and log_bond_dims of a Python class are never called. `py_default_logger::log_all` names `end_log_all` (python_binding/algorithm.cpp:113-122).
* C120: in Python `2 * t`, `t / 2`, `2 / t`, `t + 2` and `t - 2` raise TypeError for every block tensor: `__mul__` is registered twice where `__rmul__` was meant and `__div__` is not a method of Python 3 (`quantt.cpp:158-161`). `t == None` raises RuntimeError (`utilities.h:182-194`).
* C121: the tensors of all the sites of `Heisenberg` and `Hubbard` are slices of one tensor (`models.cpp:60-62`, `143-145`): writing a field into one site writes it into all. `from_basic_impl` stores slices of its argument (`btensor.cpp:2525`): changing the dense tensor afterwards changes the block tensor.
* C122: `eigh(A, split)` of a block operator throws unless twice the charge of the first section of its grouped dimensions is neutral, so for spin chains whose first state has magnetisation different from zero; `eigh(A, split, tol, ...)` always throws.
* C123: `Hubbard(U, mu, L)` with integers, Python integers included, computes in 8-bit integers: `Hubbard(200, 0, L)` has an attraction of 56. The imaginary parts of complex couplings are dropped. `Heisenberg(J, L)` of a complex `J` cuts every entry to an integer, so that a coupling between -2 and 2 is lost. A complex coupling whose real part is at most -256 or at least 258 does not fit and is undefined behaviour; four times an integer in between is right and nothing else is. The least integer of a type gives the opposite coupling (two's complement of torch).
* C124: `minimum_bond` (4 by default) wins over `maximum_bond`: `dmrg_options(max_bond=2)` in Python gives bonds of up to 4. The block search exceeds the limit when values coincide: the block SVD keeps all values equal to the last kept one (`C124_block_fails`).
* C125: a copy of an MPS, its conversion to an MPT, the result of `to` where nothing had to be converted and all sites of `MPS(n, tensor, oc)` share tensors: an operation in place on one site shows in the others.  Only the conversion says so in its documentation.
* C126: `t.add(c)` and `t += c` convert the number to the type of the tensor (`btensor.cpp:1602-1609`), unlike `t.mul(c)` and unlike torch: `t.add(0.5)` on a tensor of integers changes nothing, and a complex number added to a real tensor throws.
* C127: `t.mul_(c)` of a tensor whose blocks have several types (sums make such tensors, C111) can throw after it has multiplied some blocks. `t.mul_(c)` looks at the type of `c` and `t.div_(c)` at its value: dividing a real tensor by a complex number without imaginary part works, multiplying throws.
* C128: `MPS(std::move(t))`, `MPO(std::move(t))` and the block versions empty `t` before the ranks are checked: the tensors are lost when the check throws. `MPS(begin, end)` and `MPO(begin, end)` check nothing, and `bMPS(begin, end)` leaves the orthogonality center uninitialised (include/MPT.h:582).
* C129: `svd(t, some, compute_uv)` and `eigh(t, upper)` with `bool` flags call the functions with a split: the conversion `bool` to `int` or `size_t` is better than the one to `BOOL` (include/blockTensor/LinearAlgebra.h:30-35, 74, 146, 159, 167). All batched calls of the Python module do this (python_binding/linalg.cpp:20, 60): `svd(t)` there splits after the first dimension and truncates with tolerance 1, `eigh(t)` splits before the first dimension.
* C130: in Python `truncate(U, d, V, ...)` moves from its arguments first; if the truncation throws they stay empty. `truncate(e, S, ...)` always throws (C40) and always loses both. `truncate(U, d, U, ...)` is undefined behaviour (python_binding/linalg.cpp:96-112).
* C131: in Python all methods in place of a block tensor but `t_` return a copy that shares its blocks: `t.mul_(2).permute_([1, 0])` multiplies `t` and does not permute it (python_binding/quantt.cpp:180-189, 437-538, 654-660; the lambdas return by value).
