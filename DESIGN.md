# DESIGN: a Lean 4 model of MatthewRHermes/mrh

## 1. Approach

`/repo` is a Python + C quantum-chemistry package.  Its numerical kernels call BLAS, LAPACK, HDF5 and
PySCF; those are outside any model.  What users depend on and what unit tests cannot settle is the
*discrete* layer: fermion signs, quantum-number bookkeeping, addressing and packing, screening and
classification of interactions, duplicate elimination, parallel partitioning, checkpoint files, and
convergence flags.  That layer is modelled here function by function, as total computable Lean
functions, plus exact-arithmetic models (over a commutative ring) of the tensor identities.

Layout (`/verif/lean/Verif`):

* `Model/*.lean`  : definitions that mirror the code, each with a `/repo` file:line citation.
* `Spec/*.lean`   : small specifications written without the model's helpers.
* `Lemmas/*.lean` : proofs.
* `Props/*.lean`  : the property theorems (`Cnn_...`), each with an `example` that meets its hypotheses.

Conventions

* Python `int`/numpy integers are `Int` or `Nat` without overflow unless the property is about machine
  words (then `UInt64`/`BitVec`).
* Exceptions are values (`Option`/`Except`); a Python `assert` is a guard returning an error.
* Loops are folds or structural recursion.  numpy arrays are lists or functions of an index.
* Where the code contradicts the property, the *negation* is proved on a concrete witness
  (`..._violated`) and the part that does hold is proved with suffix `_partial`.

## 2. Trusted base

* Lean's kernel and the three standard axioms `propext`, `Classical.choice`, `Quot.sound`
  (see section 5 for the per-theorem list).  No own axioms, no `sorry`, no `native_decide`, no `bv_decide`.
* The reading of the Python/C sources (nothing was executed).
* CPython: `set` iteration order for small integers (C02/C03: open addressing, table of 8 slots, hash(n)=n, modelled in
  `Model/PySet.lean` from `Objects/setobject.c`); set/dict membership compares hashes first, then `==` (C20); a list
  comprehension has its own scope but evaluates free names late (C58); an abandoned generator is closed, so `__exit__` and
  `finally` run (C50); resizing a dict while iterating raises `RuntimeError` (C71).
* numpy: `cumsum`, `unique`, `lexsort`, `where`, `reshape`, `transpose`, `divmod`, `searchsorted` as documented; `argsort` is
  any sorting permutation; `argmax` is the first maximum; `np.all` of a generator object is true (C46); overlapping in-place
  operations are buffered; `ceil(log2 n)` is exact (C81).
* PySCF: `cistring.num_strings` is the binomial coefficient and strings are listed in ascending order; addressing and
  sign tables of `cistring`; `_unpack_nelec`; `chkfile` stores values under a path; integrals have their symmetries
  (8-fold for C54, symmetric density matrices for C80, C82, C83).
* `cistring.sub_addrs` lists in ascending order the addresses of the strings with the given number of electrons in the given
  orbitals; `strs2addr` is the position in the ascending list; `multiply.outer`, `tensordot`, `intersect1d`, `ix_` as documented
  (C93-C96). FCI kernels (`contract_2e`, `contract_1e`) are parameters (C97).
* The tables of fragment matrix elements are given (C98): `Describes` in `Spec/Lstdm` states what they contain. Screening of overlaps
  below 1e-8 and the compact buffers are not part of C98 (the scatter of the buffers is C16, C19).
* For C99, `Consistent` (Spec/LstdmKernel) states that equal unique rootspaces have equal numbers of local roots and electrons, and
  `NoCollision` that the 64-bit fingerprints of one table are injective on its rows; weights below 1e-8 are not screened.
* For C100, additionally: integrals are real and symmetric; no spin multiplicities are given, so that a spin manifold has one member; the
  elements of the operator arrays are evaluated local root by local root (Model/HamS2).
* For C104, C105: `make_rdm1_spin1`, `make_rdm12_spin1`, `reorder_rdm` and `trans_rdm12s` of PySCF give the documented density
  matrices (`Right` in Spec/FciRdm, `Right12` in Spec/FragTables); a `link_index` is determined by its numbers of orbitals and
  electrons; CI vectors are real. C105 discharges `Describes` for tables built without spin multiplicities, masks and perturbation
  orders; the assertion `< 1e-8` is replaced by equality with zero. The search for unique rootspaces is C13; C105 assumes of its
  result only `Coherent`.
* For C106: floating-point numbers are real numbers, so a division by zero or a square root of a negative number gives a number in the
  model and not-a-number in the code; that no such operation is reached for multiplicities and projections which occur was checked by
  hand only. One pair of vectors stands for the leading axis of pairs.
* For C107: as for C105 and C106; `np.allclose (ovlp, 1.0)` is equality with 1; discriminators are numbers. The vectors are assumed
  to have the multiplicities that are given (`Multiplicities`) and, when the tables are made, unit length (`Normalized`).
* For C109: as for C100, C107 and C108; Python's `hash` of a tuple is an arbitrary function, assumed to tell the rows of one table
  apart (`NoHashCollision`).
* For C110: as for C100 and C101; the fingerprint of a pair of a rootspace and a list of unique rootspaces is an arbitrary function,
  assumed not to collide on such pairs; cached operators are exact (no threshold); real numbers.
* For C111 and C112: a CI vector is represented by the set it comes from and its projection (that rotating changes nothing else is
  C32); Python's hash of tuples is an arbitrary function without collisions among products of the reference that differ only in the
  record of hops; a Python set of two fragments contains these two in some order. The CI vectors passed in are assumed to be stored
  at the highest projection, and `state_average` to keep the quantum numbers it is given.
* For C113: arrays are shapes with total functions of indices; `np.linalg.norm` is a function with the properties `IsNorm` (shown for real
  vectors); einsum paths and memory layout are not modelled.
* For C114: as for C111, C112 and C113; the transition density matrix of two rootspaces (`sdm`) is a parameter whose shape is taken to
  fit the blocks; the overlap of two vectors is an arbitrary function.
* For C115: `contract_1e` and `contract_2e` of PySCF's `direct_spin1` and `direct_uhf` give the documented sums for symmetric elements
  (`Contracts` in Spec/HalfOp); `pack_tril` and `ao2mo.restore` keep the lower triangles; `absorb_h1e` is modelled, with division by the
  number of electrons (the code adds 1e-100); CI vectors are real; a `link_index` is determined by its numbers of orbitals and electrons.
* For C117: BLAS `zgemv`, `zherk` (upper triangle) and `zgemm` compute the products their documentation states; `np.linalg.norm` is a
  parameter; the branch PARTICLESYM is not modelled.
* For C116: PySCF's C routine `FCI_t1ci_sf` fills the array of excitations and the sum of squares as its source says, `FCIcompress_link`
  keeps the entries of the link tables, `gen_linkstr_index` lists each excitation of each string once (`LinkTable`), BLAS `zgemm` multiplies
  matrices, and the real routines `FCIcontract_2es1`, `FCIcontract_a_1e_nosym`, `FCIcontract_b_1e_nosym` give the documented sums
  (`RealContracts`). OpenMP executes each iteration once on some thread, with a barrier after the loop; an iteration is one step, since it
  writes only its own row and its own thread's buffer. Arithmetic is exact; `int` overflow and allocation are not modelled.
* Fragment states (C82-C85) are functionals on operator words that vanish unless number and spin projection are conserved and
  respect the anticommutation of operators on different spin-orbitals (C84, C85); determinants are shown to be such (`Spec/DetState`).
  The fragments' own density matrices are given as values of these functionals; `casdm2f`, `casdm3f` are supplied averaged.
* `CSFTransformer` (external package): csf -> det -> csf is the identity and lengths are as announced (C87, C88); it reports a non-zero CSF count exactly for realizable quantum numbers (`CsfCounts`).
* PySCF's periodic code: the phases of `get_phase` are unitary; `get_veff` depends only on the densities of the k-points; `ao2mo_7d` has the
  permutation and Hermitian symmetry `EriSym`; `kconserv` is subtraction in an abelian group (C118). `eigh` returns a unitary matrix of eigenvectors of
  Hermitian matrices and reads the lower triangle; NumPy orders complex numbers lexicographically; `list.copy ()` is shallow (C119, C120).
* PySCF's `get_hcore`, `get_jk`, `ao2mo.restore`, `unpack_tril` and SciPy's `block_diag` have their documented meaning; `h2eff_sub` holds the
  integrals over the orbitals, packed; orbitals and CI vectors are real, integrals have eightfold symmetry and the fragments' one-body density
  matrices are symmetric (C121).
* Density fitting (C122): BLAS `dcopy` and `dgemm`, `pack_tril`, `unpack_tril`, `tensordot` and `concatenate` do what they are
  specified to do; `with_df.loop` yields consecutive blocks of the rows; `argsort` returns a permutation; passes of the parallel
  loop are atomic (threads write to different parts of the memory); `npair` does not overflow; GPU code is not modelled.
* Initial CI vectors (C123): `numpy` reshapes, multiplies and appends arrays as documented; `scipy.linalg.qr` returns some
  factorization; vectors are real.
* Canonical LASSCF orbitals (C124): `las._eig` diagonalizes symmetric matrices by an orthogonal matrix, `np.argsort` returns a
  permutation that sorts; the rotation of CI vectors is a parameter; arithmetic is exact, orbitals are real and have no symmetry labels.
* Division among fragments (C125): singular values are inputs, their number is the smaller dimension; `np.argsort` as above; no symmetry.
* Genealogical couplings (C126): Python sets are lists without duplicates; the order of the rows is not modelled; integers are unbounded.
* Clebsch-Gordan products (C127): SymPy's coefficients are a parameter, of which only <00;jm|jm> = 1 is assumed; coefficients are exact; `np.around` and `round` agree except for halves.
* Impurity spaces (C128): singular value decompositions are inputs that satisfy `IsSvd`; orbitals are real; electrons are not counted; the Fock matrix is an input of the last step.
* Fallback decomposition (C129): the results of `scipy.linalg.eigh` (orthonormal eigenvectors, `IsEigh`) and of the second `scipy.linalg.svd` (`IsSvd`) are inputs; matrices are real, exact and not zero; the branch in which the second decomposition fails too is not modelled.
* Spin-orbit integrals (C130): the integrals over primitive operators are inputs with the symmetries `IntSymm`; the integrals of a copied molecule with the shells of one atom are those of the molecule between these shells; `int1e_prinvxp` refers to the origin of coordinates if no other origin is set; the density matrix is an input.
* Constant term (C131): one fragment, no SI vectors; array shapes are not modelled.
* h5py operations are atomic and happen in program order; a crash may happen between any two of them (C42).
* Exact arithmetic: floating-point numbers are elements of a commutative ring or field; rounding is not modelled.
  Bit strings in `lib/fsucc.c` are `uint64` with at most 30 orbitals; C `int` products are modelled with their 32-bit range
  where a property is about it (C19).
* Not modelled: integral transformation, orbital optimization, Davidson iterations, HDF5 internals, the contents of the CSF
  transformation, logging, timing, GPU code, of the periodic (`pbc`) code all but the complex CI routines and the CASCI
  Hamiltonian, density matrices and canonicalization, DMET (`my_dmet`), pair-density functional code, gradients.
  The modelled functions are listed in section 6.

## 3. Per-property plan

* **C01 Spin-shuffle sign is the parity of the operator reordering** : Model the loop literally; spec = inversion count of an explicit operator word; induction over fragments.
* **C02 Fragment-isolation sign is the parity of the operator reordering** : Model CPython set order + the loop; spec = parity of block reordering; negation for indices >= 8, _partial for ascending iteration / indices < 8.
* **C03 Destruction-operator sign is the parity of the operators it passes** : As C02.
* **C04 Hopping index is antisymmetric, additive and self-zero** : Model as nested list/func of differences; algebra.
* **C05 Slater-Condon screening keeps exactly the pairs a two-body operator can couple** : Model the C loop as a fold; spec = inductive hop relation; both directions by induction.
* **C06 Spin-aware screening is a sound refinement of the charge screening** : Model the C function incl. asserts as Except; order/sym/soundness theorems.
* **C07 Interaction list is complete, duplicate-free, in bounds and independent of the thread schedule** : Model threads as arbitrary partition+order; result after sort independent; counts.
* **C08 Lower-triangular fingerprint is invariant under bra/ket exchange and column permutation** : Model SCfprint row construction; swap/permutation invariance; injectivity of rows up to swap.
* **C09 FNV-1a fingerprint distinguishes rows differing in one word, but is not injective** : UInt64 model of FNV; bijectivity of each step (odd multiplier); explicit collision.
* **C10 Interaction classification is exhaustive, exclusive and faithful** : Model argsort-based classification; spec = hop reconstruction; case analysis with omega after reduction to sorted lists.
* **C11 Product-state addressing is a bijection** : Model; spec = bijection with dependent tuples; induction over fragments (mixed radix).
* **C12 One-fragment basis transformation acts on that fragment only** : Model flat index arithmetic; Finset sums over a commutative ring.
* **C13 Unique-root detection is idempotent and points at an equivalent representative** : Model the double loop over combinations as a fold; invariant by induction.
* **C14 Multidimensional transpose is the mathematical index permutation** : Model the repeated 4-d transpose on flat index functions; spec = multi-index permutation; induction over axes.
* **C15 Spinorbital reordering index is a permutation that separates spins** : Model the loop; List.Perm to range; filter characterization.
* **C16 Contiguous-block decomposition of a mask is exact** : Model with shifted masks; spec = runs; induction over the mask.
* **C17 Thread splitting tiles the array** : Arithmetic on div/mod; partition theorem.
* **C18 Thread-partitioned reductions do not depend on the number of threads** : Model chunk arithmetic; partition theorem; fold independence.
* **C19 RDM scatter address decoding is a bijection within bounds** : Index arithmetic bijection.
* **C20 Rootspace equality and hashing obey the container contract** : Negation by witness; partial for equal entanglement map.
* **C21 Single excitations conserve electrons and spin projection** : Model get_single with Except; sums via list updates.
* **C22 Allowed multiplicity changes are exactly the realizable ones** : Integer arithmetic.
* **C23 Spin-shuffle table is exactly the set of local projections** : Model iterative table; membership iff + Nodup by induction on flips.
* **C24 Multiplicity-shuffle table is exactly the set of genealogical couplings** : Model iterative table and filters; membership iff triangle-path predicate.
* **C25 Projection count equals the sum of coupling counts** : Counting lemma via recursion on fragments.
* **C26 Orthogonality by multiplicity is sound and complete** : Spec = reachable total spins (set recursion); range characterization.
* **C27 Rootspace filtering by target multiplicity keeps exactly the rootspaces able to reach it** : Same spec; negation + partial.
* **C28 Spin shuffling closes the space and is idempotent** : Model with seen-list; membership, idempotence.
* **C29 Excitation generation preserves references and never duplicates** : Model; dedup lemmas.
* **C30 Combining orthogonal excitations is consistent** : Model; greedy adjustment lemma.
* **C31 Spin-shuffle relation is an equivalence and manifolds partition the list** : Relation lemmas; fold invariant.
* **C32 Spin rotation tables cover every projection with non-vanishing normalization** : Range membership; norm factors positivity.
* **C33 Block addressing of the orthonormal basis is a bijection** : searchsorted model; bijection.
* **C34 Spin-shift of guess vectors is block aligned** : Negation by witness; partial when no manifold is skipped.
* **C35 Occupation-address tables are consistent** : Bit-count recursion; scatter/gather round trip.
* **C36 Coupled-cluster factor touches each amplitude pair once** : Bit-level model of spectator expansion; injectivity and disjointness.
* **C37 Coupled-cluster factor is invertible by amplitude negation** : Ring identity per pair lifted by C36.
* **C38 Excitation projector is idempotent** : Idempotence of mask.
* **C39 Triangular index enumeration is a bijection** : Triangular numbers.
* **C40 Vacuum and spin shuffles of SI vectors are involutions** : Sign multiplication.
* **C41 Checkpointing a LASSCF calculation round-trips** : File = key/value store; round trip.
* **C42 An interrupted checkpoint is detected on load** : Crash-prefix semantics of the write sequence; detection theorem; negation for LASSIS records.
* **C43 Value filters of the intermediate checkpoint round-trip** : Recursive value type; round trip for supported fragment; negation for tuples/bools.
* **C44 A consistent intermediate checkpoint can be loaded** : Negation: load always raises on non-empty data.
* **C45 Product-state solver reports convergence only if everything converged** : Flag logic; negation + partial.
* **C46 State-average mixed solver reports convergence only if every solver converged** : Flag logic; negation + partial.
* **C47 LASSI reports convergence only if every symmetry block converged** : Flag logic; negation + partial.
* **C48 LASSI keyword arguments reach the diagonalizer** : Attribute store model; negation + partial.
* **C49 Symmetry-block assembly returns eigenvectors in the original order** : Permutation lemma: concatenation then argsort inversion.
* **C50 Temporary sub-calculation state is always restored** : State machine with exception points.
* **C51 Cumulant decomposition round-trips** : Ring identity.
* **C52 Orbital energy decomposition sums to the total energy** : Finset sum identity.
* **C53 Energy from density matrices uses the physical prefactors** : Negation + partial.
* **C54 Fragment effective Hamiltonian reproduces the total energy** : Finset sum identity using integral symmetry.
* **C55 Serial-fragment schedule is fair** : Modular arithmetic.
* **C56 Excited-fragment bookkeeping stays sorted and consistent** : Invariant by induction over calls.
* **C57 Dummy-orbital padding round-trips** : Block model; round trip.
* **C58 Parallel keyframe merging averages all keyframes** : Negation + partial.
* **C59 Active-active block selection contains the largest gradient pair** : argmax div/mod; selection invariant.
* **C60 LASSIS coordinate packing round-trips and has the advertised length** : Segmented packing model; length negation + partial.
* **C61 Changing the state-average list keeps CI vectors attached to their states** : Fold model; characterization.
* **C62 Duplicate detection is exact** : Nodup equivalence.
* **C63 Single excitations between rootspaces are recognized and described correctly** : Differences per fragment; equivalence with the specification of C21.
* **C64 Raw block addressing matches the product-state table** : Mixed-radix addressing over the manifolds; equality with the table.
* **C65 Basis transformation and its reverse are adjoint** : Bilinear form over a commutative ring; Finset sums.
* **C66 Coupled-cluster kernels apply the documented operators** : Operators on bit strings with fermion signs; pairwise action lifted by C36.
* **C67 Amplitude derivative of a coupled-cluster factor** : Formal derivative of cos/sin in a ring with a rotation pair.
* **C68 FSUCCcontractS2 applies the total-spin operator** : Ladder operators on bit strings; S-S+ expansion.
* **C69 Factorized coupled-cluster operator is unitary** : Product of rotations; induction over the factors.
* **C70 get_deriv1 is the amplitude derivative** : Product rule over the list of factors.
* **C71 gen_deriv1 yields every derivative** : Generator as list; negation for transpose.
* **C72 UCC energy gradient is exact** : Derivative of a quadratic form along the factor list.
* **C73 UCC Hamiltonian contraction** : Sum over number sectors of the Fock space.
* **C74 Number operators count electrons** : Bit counts.
* **C75 Fock-space spin-shuffle table** : Word parity against a specification with explicit operator words.
* **C76 Fock-space fragment-shuffle table** : As C75.
* **C77 Determinant printing is faithful** : String decoding inverse to printing.
* **C78 A repeated LASSI calculation reports its own convergence** : State machine over calls; negation + partial.
* **C79 Spin expectation value from density matrices** : Ring identity.
* **C80 Product states have no inter-fragment cumulant** : Finset sum identity.
* **C81 The recombination tournament loses no fragment** : Rounds as list recursion; invariant on the owned fragments.
* **C82 The two-body density matrix of all fragments is that of the product state** : Specification: expectation values of operator words in an antisymmetric product (`Spec/ProdRdm`: sort the word by fragment with its sign, multiply the fragments' values). Invariant of the pair loop: blocks not yet written are zero, written blocks are final.
* **C83 The spin-separated two-body density matrix is that of the product state** : Same, per spin component.
* **C84 The three-body density matrix of all fragments is that of the product state** : The loops as a list of block updates; distinct updates write distinct blocks, written blocks hold the target (which is symmetric under exchange of operator pairs, because fragment states anticommute), unwritten blocks have target zero by conservation of number and spin per fragment.
* **C85 The spin-separated three-body density matrix is that of the product state** : Same, per spin component.
* **C86 Orbital rotations are the nonredundant ones, each once** : The slices as predicates on index pairs; specification by the class number of an orbital; induction over the list of fragments.
* **C87 Packed LASSCF coordinates lose nothing** : Row-major list of mask positions without duplicates, scatter/gather inverse; induction over fragments and states.
* **C88 A coordinate is identified correctly** : Same induction, following the subtraction of block lengths.
* **C89 The first microiteration step respects the trust radius** : Real analysis: componentwise bounds of the shifted preconditioner.
* **C90 An aborted microiteration does not raise the energy** : Case analysis of the three attempts with abstract energy.
* **C91 Reported convergence belongs to the returned wave function** : The kernel as recursion over macrocycles with abstract steps; induction against the trajectory.
* **C92 CI updates keep normalization and frozen fragments** : Real analysis of the rotation formula.
* **C93 Product CI vectors have the fragments' coefficients** : Arrays as functions of an index list with NumPy's reshape and transpose; the addresses are shown to be those of the concatenated strings in order; induction over fragments.
* **C94 Projections on product states are exact** : Loop invariant of the successive reshapes with the contracted fragments' weights; sums over addresses regrouped into sums over fragment strings.
* **C95 The overlap matrix of product states is exact and the sector filter drops only zeros** : C93 and C94 for every pair of rootspaces; counting of differing occupations for the filter.
* **C96 The spinless representation is faithful** : The address table is injective, also across spin sectors; sign by block reordering of the operator word.
* **C97 The Hamiltonian projected on partially uncontracted product states is complete** : Four negations on the model of the code, with the cases in which it holds.
* **C98 The factorized algorithm gives the transition density matrices of every pair of product states** : CI vectors and annihilation operators are defined on strings (`Spec/Tdm`); the product rule of annihilation is proved, every row of every table is shown to hold exactly the elements of its fragments and spins, and every nonzero element is shown to be in exactly one row.
* **C99 All transition density matrices of all rootspaces by the factorized algorithm** : addresses of model states are shown to be mixed-radix numbers, the matrix of spectator overlaps a Kronecker product in the same order; every row of every table is the image of exactly one unique row, so that the element of a pair is the sum over its rows of C98; the halved diagonal and the transpose restore the triangle that is not visited.
* **C100 Hamiltonian and spin-squared matrices of all model states by the factorized algorithm** : each row's formula is shown to be the contraction of the row's density matrices (C98) with the integrals, or with the coefficients of the spin-squared operator, by a linear functional of the pair of arrays; the two loops are then run side by side (simulation), the functional of every accumulated pair of arrays being the accumulated element; assignments with arrays of indices add all contributions because their indices are distinct; the final functional of C99's result is the operator element, by normal ordering of the operators in second quantization.
* **C101 Overlap matrix of the model states by the factorized algorithm** : the fold over the blocks is shown to write each block once (first occurrence of a pair in the table of null excitations); the halved matrix plus its transpose is the product of the fragment overlaps, which is zero where electron numbers differ; C102 gives the rotated vectors.
* **C102 Rotating the results for linearly equivalent rootspaces** : induction over fragments and dictionary entries, with the invariant that the array holds the quantity for vectors of which a part is already rotated; each step is C12's theorem on the action of one matrix on one axis, applied to both axes.
* **C103 Density matrices of linear combinations of product states without pairwise density matrices** : a simulation of the kernel of C99 (every row of the tables adds to the result what the sum over bra and ket, with the coefficients, of the row's addition in C99 is); the coefficients are transformed by the transposed matrices, and C12's theorem plus an exchange of the local root with the summation index shows that the linear combination is that of the caller.
* **C104 Transition density matrices between different electron numbers are exact** : a padded CI array is the vector with the dummy spin-orbitals occupied (C57's strings); annihilation in the larger space is annihilation of the dummy or of a fragment orbital up to a sign that is computed; the requested block of the ordinary density matrix is then the matrix element.
* **C105 Fragment matrix-element tables hold the matrix elements of the current vectors** : every step of the loops replaces one entry by a right one (C104) and leaves all right entries right; every pair of rootspaces whose electron numbers are connected is in one of the lists; entries that are screened out belong to vectors that did not change; the antisymmetry assertion is the anticommutation of annihilation operators.
* **C106 Transition density matrices of spin-rotated CI vectors give back those of the original vectors** : the vectors obtained by lowering a highest-weight vector form a ladder with the usual factors; matrix elements of words of creators and annihilators between two ladders satisfy the recursions of their commutators with S- and S+, which are again words; the recursions of tensor operators of rank 0, 1/2, 1, 3/2 and 2 are solved in closed form, and the code's factors are compared with the solution in each case of the multiplicities.
* **C107 Fragment matrix-element tables shared between the members of spin multiplets** : the search for manifolds keeps the invariant that members of a manifold are related by ladder operators and have different projections; tables are filled as in C105 for the rotated vectors of a pair that stands for two manifolds; the lookup is C106 for the pair asked for, whose rotated vectors are the same. Histories by induction, and a counterexample for updates that take a manifold apart.
* **C108 No coupling is lost when pairs of rootspaces are screened by local spin multiplicities** : selection rule for strings of annihilation operators between members of two multiplets, by induction on the number of operators that can still be turned and downward in the projection; product states factorize into fragments; C06 turns the surviving strings into acceptance by the C code.
* **C109 Hamiltonian and spin-squared matrices computed once per spin manifold equal those of all model states** : for every kind of interaction, the value from the rotated tables equals the reduced value from the tables of the highest projections (Wigner-Eckart factors of C106/C107); rows with equal hash data have equal shapes; groups are a permutation of the rows and the accumulation commutes; then C100 with C107 and C108.
* **C110 Products of H, S^2 and the overlap with a vector, without the matrices, are exact** : the vector of a key before fragment t is the sum of the contributions of the rootspaces that reach the key, by induction on the fragments; the cached operator of a row, applied to it and transposed back, is the sum over the images of the row of their matrix elements times the overlaps of the spectators; groups partition the rows; then C100 and C101. Rotations: the transformation with the transposed matrix is the adjoint, and all quantities are linear in bra and ket.
* **C111 The LASSIS model space** : invariants of the four stages (single hops, products of hops by induction on the product order, injection of flips by induction on the fragments, shuffling of the projections via C28); the hops and flips of a product are determined by its quantum numbers and record, so nothing is duplicated; the vectors are filled in by induction on the list of hops. Completeness fails for downward flips and existence for high projections (counterexamples).
* **C112 LASSIS finds the rootspaces of a set of vectors** : from C111, by cases on what happens to the fragment. Fails for nine fragments (counterexample).
* **C113 Density matrices of the sites of LASSI states** : induction over the sites contracted, positions in Fortran order as mixed-radix numbers. Axes of the two-site matrix and an overwritten argument violate it (counterexamples).
* **C114 Basis of fragment wave functions of LASSIS** : prefix sums for the numbering; the fold over blocks writes or adds each block once; rootspaces from C112. Fails for four fragments (counterexample).
* **C115 Operators that change the number of electrons act exactly on CI vectors** : creation and annihilation in the padded space against those of the fragment (signs of the dummy orbitals); the part of the result with the requested dummy occupation is the operator of the fragment; `absorb_h1e` by the anticommutation relations and the number operator. Factor and symmetry: counterexamples.
* **C116 Contraction of complex CI vectors** : the C routine is modelled as folds over the blocks, the rows in the order of an arbitrary schedule, a buffer per thread and an arbitrary order of the critical sections. Each step adds a term that does not depend on the state, so the result is a sum over all rows (`block_val`), the blocks cover each string once, skipped tiles contribute nothing, and sums along link tables are excitation operators (`gather`, `scatter`). The four-contraction version by linearity over the real and imaginary parts; absorb_h1e by the lemma of C115; the spin0 version by symmetry of the intermediate array.

* **C117 Density matrices of complex CI vectors** : the driver is a fold over rows in the order of an arbitrary schedule with a buffer per thread; each kernel call adds a term that does not depend on the buffer, so the result is a sum over rows and blocks (`drv_val`). Sums along link tables are excitation operators (lemmas of C116), their products are scalar products of excited vectors, and the adjoint of an excitation (`dot_exc`) turns them into expectation values. The triangle that is not computed follows from Hermiticity, the ordered products from the anticommutation relation. The python loops the same way.
* **C118 Active-space Hamiltonian and density matrices of k-point calculations** : composite indices split into k-point and orbital; unitarity of the phases and orthonormality collapse the sums; momentum conservation in an abelian group gives the symmetries.
* **C119 Canonical orbitals of k-point calculations** : arrays in a heap with references, so that shallow copies are visible; a loop invariant over k-points; the effect of one block as a structure, composed for core and virtual block; the spectral theorem shows that the eigensolver contract can be met.
* **C120 Spin, checks and starting vectors of the solver for complex CI vectors** : real and imaginary parts; NumPy's lexicographic maximum as a fold.
* **C121 Energies, effective Hamiltonians and density matrices of LAS states** : integrals and densities are transformed to the orbitals; the core separates from the active orbitals; cumulants of product states are block diagonal; the fragment's Hamiltonian follows from C54; averages by linearity.
* **C122 Density-fitted integrals and potentials** : the copies into a thread's work array are tracked by an invariant over the pairs; passes of the parallel loop add to disjoint rows; sums over blocks are joined by induction; packed sums are unfolded by induction on the number of orbitals.
* **C123 Initial CI vectors from stored and generated ones** : by cases on what is stored; the failure of orthogonality from the equations that define a QR factorization.
* **C124 Canonical orbitals of LASSCF wave functions** : each space is a block of columns that vanishes outside of its rows; the block is an orthogonal matrix with permuted columns, so that orthogonality, diagonality and order follow block by block; integrals by multilinearity.
* **C125 Division of a reference determinant among fragments** : occupations as lists; the values above a threshold are the first ones of the sorted list, by counting; the violation by computation.
* **C126 Table of genealogical couplings** : passes of the loop as levels of a graded set; every path between the limits can be raised at some node (induction on the distance from the ceiling), and the number of passes exceeds the distance; the violation by computation.
* **C127 Products of Clebsch-Gordan coefficients** : induction on the remaining spins with the invariant that what is missing from the total projection can be supplied by them and has their parity; the violation by computation.
* **C128 Impurity orbital spaces** : each step rotates the environment by an orthogonal matrix and divides it, which preserves the projector; disentanglement from idempotency of the inactive density matrix and the singular value decomposition; the violation by computation.
* **C129 Singular value decomposition when LAPACK's fails** : eigenvectors with eigenvalue zero are annihilated by the matrix (sum of squares), so the matrix equals its projection onto the vectors kept; rotating these by orthogonal matrices preserves orthogonality; shapes by cases.
* **C130 Spin-orbit coupling integrals** : antisymmetry of each block from that of the integrals, preserved by assignment to a block (induction over atoms); contents of blocks of disjoint atoms by induction; difference for one atom by algebra.
* **C131 Constant term of the Hamiltonian acting on CI vectors** : induction over kets with disjoint ranges of columns, for any initial array; induction over bras for the array that is written.

## 4. Findings (places where the code does not satisfy the property)

Each has a theorem `..._violated`, a concrete execution of the model; the part that holds is `..._partial`.

* **C02** (`C02_frag_shuffle_violated`): False as stated: CPython set iteration order is not ascending for fragment indices >= 8 (C02_frag_shuffle_violated); proved for indices < 8 and for every ascending iteration order.
* **C03** (`C03_des_shuffle_violated`): Same defect as C02 (C03_des_shuffle_violated); proved for indices < 8 and for every ascending iteration order.
* **C16** (`C16_equal_length_violated`): The copy list is proved exact. The 'equal lengths' clause fails for an all-False mask: the source-start array has one element more (C16_equal_length_violated); proved when some element is selected.
* **C19** (`C19_scatter2_overflow_violated`): Proved for all sizes whose int products fit 32 bits. The two-body kernel multiplies npdest*npdest in int, so it overflows from 216 active orbitals (C19_scatter2_overflow_violated).
* **C20** (`C20_equal_hash_violated`): Equality means equality of all compared numbers (proved). Hash agreement and set deduplication are proved for rootspaces with the same entmap; violated in general: entmap enters the hash but not the comparison.
* **C27** (`C27_any_violated`, `C27_all_violated`): Charge/multiplicity windows exact; target lists exact when parity matches (all) or for one target (any); violated in general (parity ignored, and 'any' tests lower and upper bound against different targets).
* **C29** (`C29_filter_violated`): The listing and its spin-shuffle filter are proved; the filter compares every excitation with the first reference only, so with references of different electron number it can raise IndexError (C29_filter_violated).
* **C34** (`C34_aligned_violated`): False as stated: SmultShifter._matvec advances the block offsets only for manifolds present in both bases, so after a manifold that exists in one basis only all later manifolds are misaligned (C34_aligned_violated); proved when no manifold is empty in one basis only.
* **C37** (`C37_restore_violated`): False as stated at the C level for i = a up to order (C37_restore_violated: the kernel then overwrites one entry twice); proved whenever the two strings are not rearrangements of each other, which FSUCCOperator guarantees (C69).
* **C42** (`C42_lassi_violated`, `C42_lassis_violated`): Holds for LASSCF at every crash point (C42_las). Violated for LASSI (the LAS and LASSI records are replaced one after the other: a crash in between loads new LAS with old LASSI data) and for LASSIS (vectors not yet written load as None).
* **C43** (`C43_tuple_violated`, `C43_bool_violated`): Holds for None, integers, arrays, lists and dicts. Violated for tuples (never come back as tuples) and booleans (load raises ValueError).
* **C44** (`C44_load_violated`): Violated: load_chk_ can never return True; it reports a mismatch or raises ValueError (iterates over dict keys and unpacks them). What holds: the object is left unchanged.
* **C45** (`C45_violated`): Gradient, spread and cycle-count conditions are proved exact, and the returned state is that of the stopping cycle. False for the fragment solvers: line 52 tests all([solvers_converged]), the truth value of a non-empty list (C45_violated).
* **C46** (`C46_violated`): np.all of a generator is always true, so the flag is set whatever the components report (C46_violated).
* **C47** (`C47_violated`, `C47_trivial_violated`): The flag is overwritten by each block that needs a diagonalization (C47_violated), and stays False if no block does (C47_trivial_violated). Proved exact for one non-trivial block, and when all converge.
* **C48** (`C48_violated`): LASSI.kernel sets sisolver.level_shift_si, nroots_si and privref_si, which the diagonalizer never reads (C48_violated); pspace_size_si and smult_si are proved to arrive.
* **C53** (`C53_violated`): The prefactor is 1/ndim!, i.e. 1/2 for one-body and 1/24 for two-body arrays instead of 1 and 1/2 (C53_violated); what is computed is proved (C53_weights_partial).
* **C58** (`C58_dm1s_violated`): False of the density matrix: combine.py:73 sums kf2.dm1s over a comprehension variable named dm1s, so kf2 is the last keyframe and the 'average' is the last keyframe's density matrix (C58_dm1s_violated). Ownership of orbitals and CI vectors and the averaged potential are proved in full. Numerical steps (Loewdin, SVD, QR, diagonalization) are not modelled.
* **C60** (`C60_length_violated`, `C60_roundtrip_violated`): coords.py sizes both spin components of a charge-hop vector with the first one's transformer, so the round trip and the length fail when the two components have different CSF counts (C60_length_violated, C60_roundtrip_violated); proved when the shapes agree (_partial).
* **C67** (`C67_derivative_violated`): The code comment (derivative without projecting spectators) is false (C67_derivative_violated); with the projection, as get_deriv1 does it, it is proved.
* **C69** (`C69_dtype_violated`): Proved for C-contiguous float64 arrays; for other arrays the ctypes call works on a copy and __call__ silently returns the untransformed vector (C69_dtype_violated).
* **C71** (`C71_transpose_violated`): Proved for transpose=False; with transpose=True and two or more generators the iteration raises RuntimeError (C71_transpose_violated).
* **C78** (`C78_sticky_violated`): self.converged = self.converged and self.converged_si is sticky: after one failure no later call reports convergence (C78_sticky_violated).
* **C81** (`C81_small_limit_violated`): Completion is proved for every number of fragments and every limit. Every fragment's update survives if the limit is at least the number of fragments (default). With a smaller combine_pair_max_frags the responsibilities of the merged keyframe shrink to the relaxed fragments, so from five fragments on later rounds take other fragments from the reference keyframe and their update is lost (C81_small_limit_violated).
* **C83** (`C83_opposite_spin_violated`): aa and bb proved in full. ab is filled as if ab = ba: for fragments f < g the element (gg|ff) receives alpha of f times beta of g, i.e. the transposed element (C83_opposite_spin_violated); all other elements, and all elements for fragments with equal alpha and beta densities, are proved (C83_opposite_spin_partial).
* **C84** (`C84_spin_violated`, `C84_weights_violated`): Two errors of the code: the rootspace weights enter inter-fragment terms twice, so they are squared (C84_weights_violated), and terms 7 and 8 use the ab component of a fragment's two-body density twice instead of ab plus ba (C84_spin_violated). Proved for weights with w^2 = w (one rootspace) and fragments whose ab and ba components agree, for every element.
* **C85** (`C85_aab_violated`): aaa, bbb and abb proved for one rootspace (weights are squared otherwise, see C84_weights_violated). In aab the exchange of two alpha electrons between fragments f < h around a fragment g between them uses the alpha density of g and the beta density of h (C85_aab_violated); all other elements are proved (C85_aab_partial).
* **C88** (`C88_frozen_violated`): ncsf_sub leaves out the rows of frozen fragments, but addr2idstr indexes its sums with the number of the fragment. With frozen_ci set for a fragment before another one the wrong row is used or an IndexError ends the calculation (the microiteration callback calls it on every iteration), see C88_frozen_violated. Proved when all frozen fragments come last.
* **C89** (`C89_trust_violated`): Proved when degrees of freedom can be masked (trust radius at least pi, the default) and when the Hessian diagonal is non-negative. With negative elements and nothing to mask, the shift g/x + g/trust can be too small and the assertion fails (C89_trust_violated: default trust radius, gradient (3,4), diagonal (-1, 1/100)).
* **C90** (`C90_energy_violated`): Of three trial steps the first that lowers the energy is taken (proved). If none does, the last one is taken although it raises the energy (C90_energy_violated).
* **C97** (`C97_constant_violated`, `C97_bra_sectors_violated`, `C97_block_shape_violated`, `C97_memory_violated`): With spin-orbit coupling the constant is added twice (C97_constant_violated); spin sectors that only the bra has are a KeyError, because the bra's tables are built from the ket (C97_bra_sectors_violated); rootspaces of other spin sectors give a one-dimensional block of zeros (C97_block_shape_violated); the memory check uses the size of spin-free vectors also with spin-orbit coupling (C97_memory_violated). The rest is proved.
* **C98** (`C98_nine_fragments_violated`): Proved for up to eight fragments, for arbitrary fragment vectors with definite electron numbers (C98_pair_exact_partial). With nine fragments the list made from a set of fragment numbers is not ascending and the sign of a hop can be wrong (C98_nine_fragments_violated).
* **C107** (`C107_history_violated`): Violated in full: update_ci_ does not compute the spin manifolds again, so that after vectors of one manifold are replaced independently a lookup returns the entry of another member (C107_history_violated, a doublet; the only caller in the library, the Hessian of lassis, builds its tables without multiplicities). Proved: the manifolds found are multiplets, building succeeds and is exact, and after any history lookups are exact if the rootspaces of one manifold are still states of the same multiplets.
* **C109** (`C109_spin_dependent_integrals_violated`): Violated in full: the one-fragment term is scaled as if it were a scalar, so that with one-electron integrals that differ for the two spins, which the documentation allows, the elements of all members of a manifold are those of the highest projection (C109_spin_dependent_integrals_violated: number of spin-up electrons of a spin-down doublet computed as 1). Proved for integrals that are the same for both spins, up to eight fragments, after any history of table updates, assuming that Python's hash and the 64-bit fingerprints do not collide and that the manifolds still hold multiplets (C109_manifolds_exact_partial); C109_as_without_manifolds shows that the grouping gives the same matrices as evaluating every interaction.
* **C111** (`C111_flip_missing_violated`, `C111_crash_violated`): Proved (C111_model_space_partial, C111_hops_complete, C111_flips_up_partial, C111_flips_alone_partial) for references for which every combination of available hops on disjoint pairs of fragments is possible with the total projection, which C111_low_spin shows for every reference of total projection -1/2, 0 or 1/2. Violated: C111_crash_violated (four doublets with total projection 1 and two hops that lower all multiplicities: an IndexError in the product of excitations) and C111_flip_missing_violated (two triplets with projections 1 and -1: the rootspace with the first one flipped to a singlet is left out, because the injected spin flip is filtered by its total projection before the projections are shuffled). Assumes that Python's hash does not collide on rootspaces that differ only in the record of hops.
* **C112** (`C112_ch_rootspaces_violated`): Proved for the reference and spin-flip vectors (C112_ref_rootspaces, C112_sf_rootspaces) and, for charge hops, whenever the traversal order of a Python set of the two fragments does not depend on the order of insertion (C112_ch_rootspaces_partial), which holds for up to eight fragments (C112_order_small). C112_ch_rootspaces_violated: with nine fragments and a hop from fragment 8 to fragment 0 nothing is found, since tuple(set((8,0))) differs from tuple(set((0,8))).
* **C113** (`C113_sdm2_axes_violated`, `C113_lroots_overwritten_violated`, `C113_second_call_violated`): Proved: weights (C113_decompose), the one-site density matrix (C113_sdm1, C113_core), the entries of the two-site one (C113_sdm2_partial) and the transition density matrix of one call (C113_trans_sdm1_partial). C113_sdm2_axes_violated: the two-site density matrix has the axes (root, site 1, site 1, site 2, site 2) instead of the documented (root, site 1, site 2, site 1, site 2). C113_lroots_overwritten_violated: _trans_sdm1 overwrites the caller's array of numbers of local states of the ket; C113_second_call_violated: the same call again raises an assertion error.
* **C114** (`C114_density_violated`): Proved: numbering (C114_index), overlap matrix (C114_overlap), and the density matrix (C114_density_partial) when Python sets of two fragments are traversed in one order (up to eight fragments) and rootspaces of equal local quantum numbers in which a fragment is the same end of a hop have hops of the same kind, which holds for up to three fragments (C114_density_few_fragments). C114_density_violated: with four doublets the products {0->2 into a singlet, 1->3 into a triplet} and {0->3 into a triplet, 1->2 into a singlet} have the same local quantum numbers, but the block between the two sets of vectors is never filled, because make_fbfdm1 combines only sets whose hops have the same kind.
* **C115** (`C115_factor_violated`, `C115_symmetry_violated`): Proved for all sizes, vectors and matrix elements: contract_1he (C115_one_create, C115_one_destroy), contract_pair_op (C115_pair_create, C115_pair_destroy), contract_h00 (C115_h00), contract_h10, contract_h01, contract_h20, contract_h02. The three-half-electron operator (C115_three_create_partial, C115_three_destroy_partial) is exact for fac=0.5 and elements that are symmetric in the full-electron pair, which is what the fragment methods pass. C115_factor_violated: fac multiplies both parts and twice, so the documented default fac=1 doubles the one-half-electron part (C115_factor says what every factor gives). C115_symmetry_violated: an h3he that is not symmetric, which the documentation allows, is replaced by one of its triangles. PySCF's contract_1e and contract_2e (direct_spin1, direct_uhf) are assumed to give the documented contraction for symmetric elements.
* **C116** (`C116_spin0_violated`, `C116_small_violated`): Exact for every size, link table, block size and schedule when each nonzero coefficient exceeds the threshold of the test for empty tiles (1e-14 in absolute value of its real or imaginary part). Partial because the code fails the full statement: vectors whose coefficients are all below that size are contracted to zero (C116_small_violated), and the spin0 routine does not test the symmetry of the vector and returns a wrong, symmetric result for others (C116_spin0_violated, 'TODO: Symmetry check' in the source).
* **C117** (`C117_rdm12s_py_violated`, `C117_small_violated`): The C routines are exact for every size, link table and schedule when the square of each nonzero coefficient exceeds 1e-28 (make_rdm1s and make_rdm1 without this condition), and the python routines for vectors of norm one. Partial because the code fails the full statement: make_rdm12s_py divides the caller's vector by its norm in place and returns the matrices of the normalized vector, unlike the C version (C117_rdm12s_py_violated), and rows with small coefficients are dropped (C117_small_violated). The branch PARTICLESYM of the C driver, which no caller selects, is not modelled.
* **C119** (`C119_caller_violated`): Partial: the caller's orbitals are protected only if they are one ndarray. PySCF's k-point mean-field objects keep a list of arrays, list.copy() is shallow, and the assignment mo_coeff1[k][:,idx] = ... overwrites the orbitals of the mean-field object (C119_caller_violated, for every eigensolver).
* **C120** (`C120_eig_violated`, `C120_guess_violated`): Partial: the Hermiticity check takes np.max of complex numbers, which compares real parts, so an imaginary symmetric part of any size passes and eigh diagonalizes another matrix (C120_eig_violated); the singlet solver's get_init_guess uses the dtype of a list for several roots and always fails (C120_guess_violated).
* **C121** (`C121_veff_default_violated`): Partial: get_veff () without a density matrix calls make_rdm1 (include_core=True), but make_rdm1s already adds the core density and passes include_core on, so the core electrons are counted twice (C121_veff_default_violated); without core orbitals it is right (C121_veff_default_partial). The energies, the average, the effective Hamiltonians of the fragments, the integral slices and the density matrices are proved in full. The weighted sum needs weights of sum one and solvers whose weights are those of the LASSCF object (make_casdm2_sub reads the solvers' weights).
* **C122** (`C122_shape_violated`): Partial: the C code computes the position of an orbital's row in 32-bit unsigned arithmetic, so for results of more than 2^32 elements rows of different orbitals are added up in the same place, and an array in column-major order, which the constructor accepts, is not contracted because naux_slow calls a function that does not exist (C122_shape_violated). For arrays whose positions are representable, every schedule and block division gives the contracted vectors up to the dropped pairs (C122_contract1_partial, C122_contract1_error_partial) and, if no small non-vanishing pair is dropped, the packed integrals (C122_h2eff_partial). The inferred number of orbitals and the potential of the active electrons are proved in full.
* **C123** (`C123_few_violated`): Partial: if fewer vectors are stored than there are roots, Q.T @ ci0g multiplies an array of three dimensions, so that the call raises a ValueError for all vectors unless the number of roots is the number of alpha strings; if it is, determinants instead of roots are mixed and the appended vectors are not orthogonal to the stored ones, whichever QR factorization is returned; and size % ndet[0]*ndet[1] tests divisibility by the number of alpha strings only, so that stored arrays of another dimension can make reshape fail (C123_few_violated). If the call returns, it returns as many vectors as there are roots, the stored ones first (C123_stored_partial). The cases without stored vectors, with enough of them and with sizes that are not a multiple of the number of alpha strings are proved in full.
* **C125** (`C125_division_violated`): Partial: _get_minmax_occs takes what the other fragments need as the upper limit of a fragment (and subtracts the spins of the others from its electrons), which is right only for two equal fragments (C125_two_equal_partial, with overlaps strictly between 0 and 1 and fragments defined by enough orbitals). C125_division_violated: three equal closed-shell fragments receive 4, 2 and 0 electrons, a triplet and a singlet of two electrons each receive 3 and 1, and in a minimal basis _svd raises an IndexError for all overlaps, since it counts rows (k1 = len (mo_lvecs[:,:k])) instead of columns.
* **C126** (`C126_table_violated`): Partial: no coupling is missing if there are no singlets (C126_complete_partial), and nothing else is contained if all subunits but the first are doublets and a coupling exists (C126_exact_partial). C126_table_violated: find_lowerable_nodes does not test the lower limits |S - s| with s > S, so that two quartets after a doublet give a path through spin zero; a singlet blocks the lowering of its neighbours one at a time, so that a coupling of [2,2,1,2,2] is missing; a total spin too low to be reached is not rejected.
* **C127** (`C127_strings_violated`): Partial: proved for doubled quantum numbers, the default (C127_vector_partial: strings, coefficients and agreement with cg_prod), and for integral spins with fac=1 (C127_integral_partial: strings). C127_strings_violated: with fac=1 half-integral projections are floored, so that (1/2,-1/2) is returned as (0,-1); cg_prod_vec does not test the parity of the total projection as cg_prod does, and returns half-integral projections of triplets.
* **C128** (`C128_gradorbs_violated`): Partial: everything is proved up to and including the Schmidt decomposition (C128_schmidt_partial); when gradient orbitals are added, orthonormality and the space are preserved, and no orbital left in the environment has a larger gradient than one added, if there are no more inactive and no more external environment orbitals than fragment orbitals (C128_gradorbs_partial, C128_largest_partial). C128_gradorbs_violated: _ia2x_gradorbs sorts the columns of the inactive and external environment by the singular values of both decompositions put together, which are fewer than the columns if there are more environment than fragment orbitals; the external ones are then taken from the wrong columns and the rest is dropped, so that the only orbital with a gradient is lost.
* **C129** (`C129_shapes_violated`): Partial: if the singular values below the threshold are zero and the second decomposition succeeds, the result is a singular value decomposition with square orthogonal matrices, for any eigenvectors of degenerate singular values (C129_fallback_partial). C129_shapes_violated: with full_matrices=False, u and v are truncated after vH was made from v, so vH has as many rows as the matrix has columns, instead of the smaller dimension, if the matrix has more columns than rows.
* **C130** (`C130_one_atom_violated`): Partial: integrals are Hermitian in both cases (C130_hermitian) and the approximation is as stated (C130_atomic). C130_one_atom_violated: compute_hso with amfi=False uses the one-electron integrals int1e_prinvxp of the origin of coordinates as they are, without the charge of any nucleus and without the minus sign, so that for one atom at the origin, where the approximation should change nothing, the one-electron part has the wrong sign and is too small by the nuclear charge; nuclei elsewhere do not contribute.
* **C131** (`C131_index_violated`): Partial: proved for one bra space if the states of the last ket space come first (C131_one_space_partial). C131_index_violated: the loop over kets overwrites the number of the bra space with the first column of the ket space, so the terms of all bra spaces are added to the array whose number is the number of states before the last ket space, the other arrays receive none, and if there is no such array an error is raised. Without SI vectors; array shapes are not modelled.

Partial for other reasons:

* **C66**: The accumulating kernel is proved for every pair of strings; the exponential for strings that are not rearrangements of each other.
* **C99**: Proved for up to eight fragments, arbitrary rootspaces, local roots, identifications of equal fragment vectors and rotations of linearly equivalent ones (umat_root), under the assumption that no two different rows of a table have the same 64-bit fingerprint (C99_kernel_exact_partial, C99_rotated_partial). With spin multiplicities given, pairs of rootspaces left out have to be without matrix elements (Screens), which is C108. Missing: nine or more fragments, where C98 is violated; colliding fingerprints.
* **C100**: Proved for up to eight fragments, arbitrary real integrals, rootspaces, local roots, identifications of equal fragment vectors and rotations of linearly equivalent ones, interaction by interaction (screening by multiplicities is covered through C108, the reduction to one member of each spin manifold is C109), under the assumption that no two different rows of a table have the same 64-bit fingerprint (C100_ham_s2_exact_partial, C100_rotated_partial). Missing: nine or more fragments; colliding fingerprints; spin-orbit terms.
* **C103**: Simulation: the contraction of the density matrices of the interacting fragments with the tables is the sum over bra and ket of the products of coefficients with the result of the kernel of C99; the transformed coefficients with the representatives' vectors are the same linear combination as the caller's coefficients with the caller's vectors. Partial: up to eight fragments, no fingerprint collisions (as C99); coefficients of bra and ket equal or different by at least 1e-8 somewhere (the tolerance of the code); rootspaces with the same numbers of electrons of each spin.
* **C110**: Proved for up to eight fragments, arbitrary real symmetric integrals, rootspaces, local roots, trial vectors, identifications of equal fragment vectors and rotations of linearly equivalent ones (C110_matvec_partial, C110_overlap_matvec, C110_rotated_partial), assuming that neither the 64-bit fingerprints of the rows nor those of the links of a group collide. Missing: nine or more fragments; colliding fingerprints; spin multiplicities and spin manifolds (reduce_spin); the thresholds below which cached operators are dropped; the GPU branch.

## 5. Axioms per theorem

See `AXIOMS.md`, the output of `#print axioms` for every theorem of the manifest (`tools/axioms.py` regenerates it).  Only `propext`, `Classical.choice` and `Quot.sound` occur.

## 6. Modelled code

For each model module: the number of definitions and the source lines cited in their comments. Everything not listed here is not modelled.

* `Model/Addr.lean` (7 definitions): `my_pyscf/lassi/citools.py` 44-73, 44-121, 63-72, 67-70
* `Model/AsyncCombine.lean` (16 definitions): `crunch.py` 457-459, 459; `keyframe.py` 6-14; `lasscf_async.py` 72-76, 82-94, 85-92, 87-89; `my_pyscf/mcscf/lasscf_async/combine.py` 19-24, 19-31, 27-31, 72, 73, 181-245, 198-199, 247-267
* `Model/Bigdim.lean` (5 definitions): `my_pyscf/lassi/op_o1/utilities.py` 230-256, 253, 258-281; `util/bigdim.py` 6-50, 42-49
* `Model/Blocks.lean` (7 definitions): `my_pyscf/lassi/op_o1/utilities.py` 167-176, 167-228, 178-187, 209-228
* `Model/CgProd.lean` (9 definitions): `my_pyscf/tools/cg.py` 8-172, 12-29, 14-17, 41-85, 67-70, 78-84, 87-172, 119-121, 128-152, 158-168
* `Model/ChkO1.lean` (27 definitions): `my_pyscf/lassi/op_o1/chkfile.py` 18-25, 28-34, 30, 32, 37-48, 38-47, 41-45; `my_pyscf/lassi/op_o1/frag.py` 561-569, 561-621, 598-621, 608-612
* `Model/Chkfile.lean` (33 definitions): `my_pyscf/lassi/chkfile.py` 5-7, 9-17, 19-28, 94-102; `my_pyscf/lassi/lassis/chkfile.py` 8, 10-26, 28-51, 53-77, 75-94; `my_pyscf/mcscf/chkfile.py` 5-7, 9-23, 25-62, 64-73, 75-92, 94-102, 104-113, 115-125, 127-132
* `Model/Converge.lean` (19 definitions): `my_pyscf/lassi/lassi.py` 190-193, 194-197, 213-251, 303-328, 857-866, 875; `my_pyscf/lassi/sisolver.py` 209-217; `my_pyscf/mcscf/addons.py` 157-158; `my_pyscf/mcscf/productstate.py` 27-67, 36-57, 186-204
* `Model/Coords.lean` (21 definitions): `my_pyscf/lassi/lassis/coords.py` 14-84, 86-133, 90-95, 94, 104, 116, 123, 127, 135-200, 139-187, 206-213, 215-225, 227-230, 236-252
* `Model/CplxCi.lean` (27 definitions): `direct_spin0_cplx.py` 21-67, 48-52; `direct_spin1_cplx_opt.py` 22-68, 52-56; `lib/pbclas/pbc_fci_contract_opt.c` 60-90, 93-115, 118-128, 130-190, 265-373, 277-282, 325-353, 404-523, 415-420; `my_pyscf/pbc/fci/direct_spin1_cplx.py` 47-101, 103-151, 153-175, 244-259
* `Model/CplxRdm.lean` (28 definitions): `lib/pbclas/pbc_fci_rdms.c` 35-85, 88-135, 141-160, 166-252, 294-330, 333-361, 369-421; `my_pyscf/pbc/fci/direct_spin1_cplx.py` 273-282, 284-290, 292-306, 308-317, 326-332, 342-350; `my_pyscf/pbc/fci/rdm_helper.py` 20-26, 28-51, 53-105, 107-145, 147-227, 176-180, 207-211
* `Model/CplxSolve.lean` (11 definitions): `direct_spin0_cplx.py` 71-93; `direct_spin1_cplx.py` 18, 352-370, 600-608, 604; `my_pyscf/pbc/fci/spin_op.py` 12-26, 28-62, 37-39
* `Model/DfInts.lean` (21 definitions): `lib/sparsedf.c` 287-360, 336-357, 341-351; `my_pyscf/df/sparse_df.py` 8-99, 15-22, 18-21, 59-61, 63, 64-66, 66, 72-99; `my_pyscf/mcscf/las_ao2mo.py` 6-70, 45-62, 55-58; `my_pyscf/mcscf/lasscf_sync_o0.py` 1761-1814, 1802-1814
* `Model/Dummy.lean` (4 definitions): `my_pyscf/fci/dummy.py` 5-28, 9-16, 30-42, 45-68
* `Model/ExcFrags.lean` (9 definitions): `my_pyscf/lassi/lassis/excitations.py` 113-114, 126-133, 158, 159, 164-165, 185-197, 186-198, 198-205
* `Model/ExcTables.lean` (29 definitions): `my_pyscf/lassi/op_o1/stdm.py` 220-397, 252-254, 263, 270, 271, 272, 279, 280, 283-284, 286, 306-405, 307-308, 311-314, 317-321, 324-327, 330-337, 343-347, 350-354, 359-362, 365-368, 378-381, 384-388, 391-395
* `Model/Fbf.lean` (14 definitions): `my_pyscf/lassi/lassis/lassis.py` 913-946, 913-1063, 921-926, 929-944, 948-984, 953, 955-983, 986-1063, 994-996, 997-1007, 1012, 1015-1061
* `Model/FciRdm.lean` (19 definitions): `my_pyscf/fci/rdm.py` 12-20, 22-97, 82-94, 92, 216-250, 227, 230-241, 401-415, 410, 448-473, 528-552, 542-547, 620-646
* `Model/Fockspace.lean` (13 definitions): `exploratory/citools/fockspace.py` 9, 10-12, 14-25, 27-38, 40-89, 77-81, 91-133, 135-150, 143-148, 161-169, 177-185
* `Model/FragSpin.lean` (38 definitions): `my_pyscf/lassi/citools.py` 281-321, 292-298, 301-308, 309-310, 312-320, 315, 319-320; `my_pyscf/lassi/op_o1/frag.py` 206-263, 233-236, 254-257, 383-434, 454-553, 486-496, 487, 498-507, 498-517, 501-505, 510-517, 511-512, 623-628, 759-932, 770-785, 772-780, 798-804, 820-826, 840-846, 851-857, 867-874, 881-909, 887-895, 897-900, 901-909, 911-930, 917-925, 927-930
* `Model/FragTables.lean` (35 definitions): `my_pyscf/lassi/op_o1/frag.py` 206-252, 398-402, 430-434, 441-452, 480, 481-483, 484, 520-521, 543-550, 623-628, 759-932, 770-785, 772-780, 777-779, 781-785, 797-816, 818-835, 839-848, 850-861, 864-866, 867-874, 877-882, 878, 882-909, 887-895, 891-892, 897-909, 911-912, 912-930, 917-925, 921-922, 927-930
* `Model/Fsucc.lean` (22 definitions): `lib/fsucc.c` 38-47, 49-54, 56-157, 86-95, 97-101, 113-152, 116-122, 119-120, 123-124, 135-150, 137-142, 138-140, 144-149, 145-147, 159-182, 184-203, 205-241, 246-299, 268-299, 280, 301-337, 315-326
* `Model/FsuccOp.lean` (17 definitions): `exploratory/unitary_cc/uccsd_sym0.py` 23-62, 64-96, 98-127, 160-167, 169-177, 179-232, 212-230, 236-248, 250-256, 258-282, 284-288, 426-430, 426-436
* `Model/GenCoup.lean` (10 definitions): `my_pyscf/lassi/s2.py` 3-53, 8, 11, 12-15, 16, 18-29, 33-47, 36-47, 43
* `Model/HConst.lean` (6 definitions): `my_pyscf/lassi/citools.py` 223-245; `my_pyscf/lassi/op_o1/hci/chc.py` 452-489, 475-489, 479-486, 481-486; `my_pyscf/lassi/op_o1/stdm.py` 93-96
* `Model/HalfOp.lean` (21 definitions): `my_pyscf/fci/direct_halfelectron.py` 6-52, 32-47, 48-50, 51-52, 54-92, 85-91, 94-137; `my_pyscf/fci/pair_op.py` 6-39, 14-17, 24-28, 32-38; `my_pyscf/lassi/op_o1/frag.py` 1042-1060, 1042-1123, 1062-1078, 1080-1094, 1096-1110, 1112-1123
* `Model/HamRot.lean` (1 definitions): `my_pyscf/lassi/op_o1/hams2ovlp.py` 104-128
* `Model/HamS2.lean` (25 definitions): `frag.py` 232-234, 255-257, 390-395; `my_pyscf/lassi/op_o1/hams2ovlp.py` 38-40, 94-96, 104-127, 129-132, 165-173, 175-179, 181-204, 188-204, 206-213, 206-217, 219-239, 241-265, 267-303, 305-337, 339-367, 369-402, 404-492, 440-444, 445-449, 466-483; `opterm.py` 88-93; `stdm.py` 602-646, 1071-1083
* `Model/HamSpin.lean` (29 definitions): `frag.py` 176-182, 217-263, 383-434, 1181-1195, 1181-1207, 1188-1195, 1197-1207; `my_pyscf/lassi/op_o1/hams2ovlp.py` 42-54, 42-90, 52-54, 56-70, 72-90, 80-86, 104-127, 165-170, 165-173, 165-204, 181-186, 181-204, 219-239, 241-265, 267-303, 305-337, 339-367, 369-402, 404-492, 437, 440, 450, 458; `opterm.py` 82-90, 92-108; `stdm.py` 84-122, 434-456
* `Model/Hsi.lean` (35 definitions): `frag.py` 439-443; `my_pyscf/lassi/op_o1/hsi.py` 104-113, 104-115, 156-166, 168-185, 168-193, 186-193, 198-236, 214-232, 238-247, 339-342, 344-347, 348, 356-359, 370-381, 382-389, 391-429, 397-400, 397-409, 403-407, 419-423, 579-628, 604, 840-846, 848-857, 859-872, 864-872, 874-887, 1355-1386; `opterm.py` 162, 167-183, 168-182, 194-205, 258-261, 259-261, 289; `stdm.py` 401, 1001-1002
* `Model/HsiRot.lean` (6 definitions): `my_pyscf/lassi/op_o1/hsi.py` 359-365, 367-377, 370-377, 379-389, 382-389, 874-887, 876-887; `stdm.py` 1084-1090
* `Model/ImpSpace.lean` (16 definitions): `my_pyscf/mcscf/lasscf_async/split.py` 109-150, 161-198, 185-187, 200-229, 262-293, 283, 314-371, 353, 357, 360-362
* `Model/InitGuess.lean` (12 definitions): `my_pyscf/mcscf/lasci.py` 447-470, 453-454, 453-468, 454, 456, 461-464, 465, 467, 468
* `Model/KptCanon.lean` (12 definitions): `my_pyscf/pbc/mcscf/casci.py` 162-273, 212, 219-220, 232-247, 236-237, 238-244, 246, 247, 249-260
* `Model/KptCas.lean` (13 definitions): `my_pyscf/pbc/mcscf/casci.py` 34-90, 74-75, 133-147, 591-639, 633, 634, 641-674, 669, 692-735; `my_pyscf/pbc/mcscf/k2R.py` 51-52, 65, 66, 79-80, 89, 91
* `Model/LasCanon.lean` (19 definitions): `my_pyscf/mcscf/lasci.py` 173-201, 242-243, 249-253, 250-252, 256-294, 257-261, 262, 266-276, 283-284, 287, 299-302, 301, 303-304, 305, 316-323
* `Model/LasEnergy.lean` (34 definitions): `my_pyscf/mcscf/las_ao2mo.py` 216-227; `my_pyscf/mcscf/lasci.py` 57-141, 103-104, 111, 114-115, 115, 121-127, 926-932, 999-1020, 999-1047, 1022-1047, 1074-1096, 1166-1200, 1166-1347, 1202-1244, 1272-1291, 1287-1289, 1293-1306, 1308-1328, 1420-1478, 1974-2114, 2001, 2007-2009, 2010-2012, 2016-2073, 2034-2036, 2037, 2038, 2039, 2040, 2040-2042, 2061-2065, 2075-2114
* `Model/Lassis.lean` (41 definitions): `my_pyscf/lassi/lassis/lassis.py` 31-100, 34-40, 41-56, 62-72, 67-68, 255-279, 269-279, 397-433, 410-425, 413-425, 431-432, 435-493, 446-454, 449-454, 455-489, 459-476, 477-488, 517-546, 526-541, 528-539, 532-537, 597-609, 731-737, 833-853, 855-876, 878-911; `spaces.py` 156-164, 269-271, 289-315, 297-304, 307-314, 440-454, 573-590, 739-767
* `Model/LocalizeOcc.lean` (13 definitions): `my_pyscf/mcscf/lasci.py` 840-855, 847-850, 2189-2191, 2196, 2201-2213, 2202, 2203; `my_pyscf/mcscf/lasscf_guess.py` 5-27, 16-20, 21-26, 86-149, 127-149
* `Model/Lrrdm.lean` (32 definitions): `my_pyscf/lassi/op_o1/rdm.py` 44-69, 57, 71-74, 76-78, 80-100, 130-162, 164-208, 198-203, 210-254, 230-252, 256-269, 256-531, 271-290, 292-340, 342-375, 377-402, 404-439, 441-511, 478-487, 488-499, 533-544, 623-728, 661-672, 708-721, 731-750; `stdm.py` 92-94, 815-819
* `Model/Lstdm.lean` (47 definitions): `my_pyscf/lassi/op_o1/frag.py` 206-211, 284-285, 301-302, 304-305, 322-324, 326-327, 344-345, 347-348, 364-365, 367-368, 404-410, 406-409, 422-428, 424-427; `my_pyscf/lassi/op_o1/stdm.py` 111-113, 114, 456-471, 473-500, 671-686, 695-697, 699-701, 703-743, 750-763, 765-783, 785-831, 810-814, 815-819, 833-864, 866-889, 891-925, 927-996, 958-968, 960-961, 969-978, 971-972, 1004-1008, 1015-1062, 1070-1078, 1071-1078
* `Model/LstdmKernel.lean` (34 definitions): `frag.py` 206-211; `my_pyscf/lassi/op_o1/stdm.py` 91, 91-92, 93-95, 100-103, 121-122, 130-139, 171-188, 245, 245-254, 402-416, 427-428, 434-456, 449-452, 452, 553-578, 596-637, 639-686, 673-677, 678, 703-743, 1003-1011, 1062-1069, 1081-1083, 1084-1096, 1098-1115; `slatercondon.c` 335-361; `utilities.py` 121-165
* `Model/Np.lean` (16 definitions): library semantics only
* `Model/OrthBasis.lean` (36 definitions): `my_pyscf/lassi/basis.py` 151-160, 161-170, 166-171, 329-332, 349-352, 360-361, 421-422, 426-451, 436-450, 437-439, 437-440, 446-449, 450-451, 484-489, 493-499, 559-579, 566-579, 581-601, 588-601, 666-687, 672-687, 673-686, 689-710, 695-709, 707-708, 809-822, 814-822, 819, 824-833, 845-859, 852-859
* `Model/Outer.lean` (19 definitions): `op_o0.py` 172-188, 179-186, 190-214, 196, 198-199, 208-214, 209-214, 217-234, 235-256, 242-254, 243
* `Model/OuterGen.lean` (9 definitions): `op_o0.py` 257, 301-310, 306, 307, 311-318, 319-355, 341-350, 346-348, 350-353, 424-434
* `Model/Overlap.lean` (12 definitions): `my_pyscf/lassi/op_o1/stdm.py` 92-95, 104, 128, 300-303, 502-510, 502-552, 517-552, 518, 519, 520, 524-526, 527, 531-532, 535-539, 538, 541-547, 1098-1116
* `Model/ProdRdm.lean` (20 definitions): `my_pyscf/mcscf/lasci.py` 1420-1478, 1456, 1460-1463, 1464-1477, 1480-1527, 1496, 1508-1526, 1529-1599, 1573, 1577-1580, 1582-1598
* `Model/ProdRdm3.lean` (25 definitions): `my_pyscf/mcscf/lasci.py` 1601-1725, 1624-1628, 1630-1636, 1632, 1633, 1634, 1635, 1636, 1655-1691, 1696-1721, 1710-1712, 1727-1972, 1758-1763, 1765-1771, 1791-1897, 1795-1800, 1802-1807, 1812-1817, 1819-1824, 1832-1835, 1837-1840, 1850-1853, 1855-1858, 1877-1880, 1882-1885, 1913-1967, 1915-1917, 1922-1924, 1937-1939, 1941-1943, 1954-1955, 1957-1958, 1962-1963, 1965-1966
* `Model/PsEnergy.lean` (17 definitions): `my_pyscf/mcscf/productstate.py` 239-245, 239-331, 253-255, 260-277, 260-279, 284-305, 287-289, 311-331, 316-318, 320-330
* `Model/PySet.lean` (8 definitions): `my_pyscf/lassi/op_o1/utilities.py` 60
* `Model/RdmC.lean` (15 definitions): `lib/lassi/rdm.c` 44-82, 84-113, 99-104, 115-162, 136-141, 147-160, 164-220, 187-195, 201-218; `my_pyscf/lassi/op_o1/stdm.py` 1040-1061, 1044-1046
* `Model/RdmSmult.lean` (33 definitions): `my_pyscf/fci/rdm_smult.py` 12-28, 66-68, 70-79, 81-106, 144-146, 148-158, 160-185, 221-223, 225-229, 231-254, 290-292, 294-298, 300-325, 319-325, 327-368, 370-382, 383-395, 396-408, 409-421, 422-466, 468-475, 476-517, 519-558, 560-573, 574-613, 615-642, 643-680, 681-721
* `Model/RdmUtil.lean` (16 definitions): `util/rdm.py` 154-172, 154-181, 174-181, 220-236, 220-288, 221-229, 238-253, 255-271, 273-288, 292-320
* `Model/Rotate.lean` (3 definitions): `hams2ovlp.py` 98-102; `my_pyscf/lassi/op_o1/stdm.py` 1084-1090, 1086-1088, 1092-1096
* `Model/SafeSvd.lean` (8 definitions): `util/la.py` 77-132, 99, 99-123, 102, 106, 110-111, 112, 115-116, 123, 128-130
* `Model/Signs.lean` (9 definitions): `my_pyscf/lassi/op_o1/utilities.py` 13-38, 13-119, 34-37, 38, 40-69, 61-69, 63-68, 69, 71-96, 92-96, 96, 103-119
* `Model/SingleExc.lean` (9 definitions): `my_pyscf/lassi/spaces.py` 57-58, 61-62, 74-86, 336-352, 336-367, 354-362, 364-367
* `Model/SiteDm.lean` (11 definitions): `my_pyscf/lassi/sitools.py` 9-33, 9-131, 16, 35-64, 66-88, 74-79, 83-86, 90-119, 122-131
* `Model/SivecShuffle.lean` (6 definitions): `my_pyscf/lassi/sitools.py` 604-636, 604-685, 632-635, 640-685, 676-682, 676-684
* `Model/SlaterCondon.lean` (24 definitions): `lib/lassi/slatercondon.c` 19-35, 22-32, 25-32, 26-31, 37-73, 53-59, 62-70, 76-113, 94-106, 97-104, 99-100, 141-150, 161-208, 182-198, 187-194, 201-203, 243-252, 267-277, 279-291, 284-288, 335-361, 345-352; `my_pyscf/lassi/op_o1/utilities.py` 121-165, 128, 132-144
* `Model/SocInt.lean` (13 definitions): `my_pyscf/mcscf/soc_int.py` 10-68, 15, 16-17, 21-34, 30, 31, 32, 33, 36-54, 41-48, 48, 56-68, 64-67
* `Model/SpaceLists.lean` (24 definitions): `my_pyscf/lassi/spaces.py` 260-267, 342-372, 389-392, 555-563, 555-767, 565-603, 576-585, 605-637, 621-622, 639-658, 643-654, 646-651, 656-657, 660-685, 660-709, 686-698, 688-695, 696-698, 739-767, 747-757, 753-757
* `Model/Spaces.lean` (32 definitions): `my_pyscf/lassi/spaces.py` 19-39, 28, 41-42, 43-44, 45-46, 49-50, 51-52, 55-56, 59-60, 64-68, 70-72, 88-124, 126-166, 168-179, 181-211, 188-197, 369-372, 399-408
* `Model/SpinOp.lean` (16 definitions): `my_pyscf/fci/spin_op.py` 12-15, 17-20, 22-72, 91-119, 121-149; `my_pyscf/lassi/spaces.py` 273-316, 289-314, 298-304, 307-313
* `Model/SpinTables.lean` (16 definitions): `my_pyscf/lassi/spaces.py` 213-225, 213-258, 218-224, 227-258, 240-250, 252-257, 456-465, 843-895, 878-891
* `Model/Spinless.lean` (10 definitions): `op_o0.py` 30-47, 90-109, 97-105, 105, 110-125, 126-132, 350-353, 356, 624-627, 640-652
* `Model/StateAverage.lean` (11 definitions): `my_pyscf/mcscf/addons.py` 11-17; `my_pyscf/mcscf/lasci.py` 472-487, 501-526, 579-582, 618, 621-624, 622, 635-652, 643-651
* `Model/SymBlocks.lean` (10 definitions): `my_pyscf/lassi/lassi.py` 199-251, 203, 214-215, 227, 303-328, 332-333, 333, 337, 338, 348
* `Model/SyncKernel.lean` (18 definitions): `my_pyscf/mcscf/lasscf_sync_o0.py` 23-32, 23-297, 81-232, 82-105, 132-138, 135, 152-154, 195-228, 206-228, 284-332, 1249-1291, 1249-1303, 1267-1268, 1278, 1284, 1299-1303, 1451-1466, 1455-1462
* `Model/Ugg.lean` (25 definitions): `my_pyscf/mcscf/laspscf.py` 14-33, 16-23, 28-32; `my_pyscf/mcscf/lasscf_sync_o0.py` 334-362, 334-537, 354, 406-411, 413-415, 419-424, 428-431, 442-450, 444-448, 452-472, 457-470, 460-469, 474-494, 481-493, 486-492, 496-498, 500-504, 506-508, 530-534
* `Model/Umat.lean` (2 definitions): `my_pyscf/lassi/citools.py` 75-103, 75-121, 105-121
* `Model/UniqueRoots.lean` (7 definitions): `my_pyscf/lassi/citools.py` 126-197, 161-194, 164-167, 168-191, 169-191

## 7. Testing the theorems against wrong programs

Realistic bugs are introduced into a scratch copy of the model, one at a time, and everything that depends on it is rebuilt.
`seeded/LOG.jsonl` has one line per attempt.
