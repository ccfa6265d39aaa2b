{"id": "C01", "title": "Spin-shuffle sign is the parity of the operator reordering", "statement": "For every list of per-fragment alpha and beta electron counts, fermion_spin_shuffle returns the sign of the permutation that takes the fragment-interleaved product of creation operators (a0 b0 a1 b1 ... read from the vacuum outward) to the spin-separated product (all betas next to the vacuum, then all alphas), i.e. +1 if the number of operator transpositions is even and -1 if it is odd.", "quantifier": "every number of fragments and every pair of equally long lists of electron counts", "why_tests_cant": "Tests fix two or three fragments; a sign error that needs a fourth fragment or an odd-odd pair is invisible to them.", "anchors": ["my_pyscf/lassi/op_o1/utilities.py:fermion_spin_shuffle", "exploratory/citools/fockspace.py:fermion_spin_shuffle"]}
{"id": "C02", "title": "Fragment-isolation sign is the parity of the operator reordering", "statement": "fermion_frag_shuffle(nelec_f, frags) returns the sign of the permutation that makes the creation operators of the listed fragments adjacent (in fragment order) in a product of operators of all fragments, whatever order or multiplicity the fragments are listed in.", "quantifier": "every electron-count list and every list of fragment indices in range", "why_tests_cant": "The function goes through the iteration order of a hash set; small test systems have fewer than nine fragments, for which that order happens to be ascending.", "anchors": ["my_pyscf/lassi/op_o1/utilities.py:fermion_frag_shuffle"]}
{"id": "C03", "title": "Destruction-operator sign is the parity of the operators it passes", "statement": "fermion_des_shuffle(nelec_f, frags, i) returns (-1)^k, with k the total number of electrons in listed fragments lying above fragment i.", "quantifier": "every electron-count list, every list of fragment indices and every member i of it", "why_tests_cant": "Same reason as C02: depends on hash-set iteration order outside the tested sizes.", "anchors": ["my_pyscf/lassi/op_o1/utilities.py:fermion_des_shuffle"]}
{"id": "C04", "title": "Hopping index is antisymmetric, additive and self-zero", "statement": "The table returned by lst_hopping_index satisfies H[f,s,k,l] = -H[f,s,l,k], H[f,s,k,k] = 0 and H[f,s,k,l]+H[f,s,l,m] = H[f,s,k,m], and ket occupancy plus hop equals bra occupancy.", "quantifier": "every electron-count array (any number of fragments and rootspaces) and all index triples", "why_tests_cant": "Holds for all array contents; tests look at single literal arrays.", "anchors": ["my_pyscf/lassi/op_o1/utilities.py:lst_hopping_index"]}
{"id": "C05", "title": "Slater-Condon screening keeps exactly the pairs a two-body operator can couple", "statement": "A pair of rootspaces survives the charge screening if and only if the bra occupations can be reached from the ket occupations by at most two single-electron moves, each of which moves one electron of fixed spin from one fragment to another; in particular it is symmetric in bra and ket.", "quantifier": "every number of fragments and every pair of occupation lists", "why_tests_cant": "Any missed or spurious pair silently drops or adds Hamiltonian matrix elements; occupation vectors are unbounded.", "anchors": ["lib/lassi/slatercondon.c:is_interaction_coupled"]}
{"id": "C06", "title": "Spin-aware screening is a sound refinement of the charge screening", "statement": "The spin-aware screening accepts only pairs the charge screening accepts, is symmetric in bra and ket, ignores the multiplicities when they agree, and its internal parity assertions never fire on physically consistent inputs (2S+1 has opposite parity to the fragment electron number). A surviving pair changes the local multiplicities by no more than one unit per transferred electron plus two units per remaining spin-ladder step.", "quantifier": "every number of fragments, occupation lists and multiplicity lists", "why_tests_cant": "The asserts and budget arithmetic range over unbounded integer vectors.", "anchors": ["lib/lassi/slatercondon.c:is_interaction_coupled_s"]}
{"id": "C07", "title": "Interaction list is complete, duplicate-free, in bounds and independent of the thread schedule", "statement": "For any number of threads, any assignment of loop iterations to threads and any order in which threads enter the critical section, the counting pass returns the exact number of coupled pairs, the listing pass writes exactly that many rows inside the buffer, and the sorted table returned to the caller is the same: every coupled (bra,ket) pair once, in lexicographic order.", "quantifier": "every occupation table, thread count, iteration partition and critical-section order", "why_tests_cant": "Schedules are chosen by the OpenMP runtime; no test enumerates them.", "anchors": ["lib/lassi/slatercondon.c:SCcntinter", "lib/lassi/slatercondon.c:SClistinter", "my_pyscf/lassi/op_o1/utilities.py:_get_scallowed_interactions_nosmult"]}
{"id": "C08", "title": "Lower-triangular fingerprint is invariant under bra/ket exchange and column permutation", "statement": "The row that is hashed to give the sorted-pair fingerprint is the same when bra and ket model states are exchanged and when the fragment columns of the interaction are permuted; two interactions whose hashed rows are equal involve the same fragments with the same unordered pair of fragment-state strings.", "quantifier": "every interaction table, unique-root table and number of non-spectator fragments", "why_tests_cant": "Data dependent on unbounded integer tables.", "anchors": ["lib/lassi/slatercondon.c:SCfprint", "lib/lassi/slatercondon.c:bubblesort"]}
{"id": "C09", "title": "FNV-1a fingerprint distinguishes rows differing in one word, but is not injective", "statement": "Two rows of equal length that differ in exactly one 64-bit word have different fingerprints. (The documentation's claim that the fingerprint uniquely identifies the row is false: two different rows of equal length with the same fingerprint exist.)", "quantifier": "all rows of 64-bit words of any length", "why_tests_cant": "2^64 values per word; collisions are never met by tests.", "anchors": ["lib/lassi/slatercondon.c:fnv_1a"]}
{"id": "C10", "title": "Interaction classification is exhaustive, exclusive and faithful", "statement": "Every pair of rootspaces that passes the screening is put into exactly one class among no hop, one-electron transfer, spin exchange, transfer plus spin exchange (two orientations), pair transfer, split, coalesce and scatter; and the fragments and spin recorded in its table row reproduce the occupation difference exactly.", "quantifier": "every number of fragments and all occupation differences that pass screening", "why_tests_cant": "Case analysis over unbounded fragment positions and sign patterns.", "anchors": ["my_pyscf/lassi/op_o1/stdm.py:make_exc_tables", "my_pyscf/lassi/op_o1/stdm.py:LSTDM"]}
{"id": "C11", "title": "Product-state addressing is a bijection", "statement": "get_rootaddr_fragaddr lists every product state of every rootspace exactly once: the number of addresses is the sum over rootspaces of the product of local root counts, the pair (rootspace, local-root tuple) determines the address, every admissible tuple occurs, and the first fragment is fastest within a rootspace.", "quantifier": "every number of fragments/rootspaces and every table of local root counts", "why_tests_cant": "Mixed-radix arithmetic over unbounded dimensions.", "anchors": ["my_pyscf/lassi/citools.py:get_rootaddr_fragaddr"]}
{"id": "C12", "title": "One-fragment basis transformation acts on that fragment only", "statement": "umat_dot_1frag_ applied with U then V on the same fragment equals one application of the product; with the identity it does nothing; transformations on different fragments commute; and rootspaces other than the addressed one are unchanged.", "quantifier": "every table of local root counts, every fragment, all matrices over a commutative ring and every vector", "why_tests_cant": "Needs all shapes and matrices.", "anchors": ["my_pyscf/lassi/citools.py:umat_dot_1frag_", "my_pyscf/lassi/citools.py:_umat_dot_1frag"]}
{"id": "C13", "title": "Unique-root detection is idempotent and points at an equivalent representative", "statement": "After get_unique_roots, each root's representative is an earlier-or-equal root with the same electron numbers, the representative of a representative is itself, and roots with the same representative are pairwise judged identical to it; the internal consistency check cannot fail.", "quantifier": "every list of roots and every pairwise comparison result (including a non-transitive numerical comparison)", "why_tests_cant": "The closing assertion depends on the whole comparison table.", "anchors": ["my_pyscf/lassi/citools.py:get_unique_roots"]}
{"id": "C14", "title": "Multidimensional transpose is the mathematical index permutation", "statement": "util.bigdim.transpose applied to a flat array of any shape of positive extents returns the array whose element at permuted multi-index equals the input's element at the original multi-index, in both C and Fortran order, for any permutation of the axes; applying it again with the inverse permutation restores the input.", "quantifier": "every rank (beyond numpy's 32-dimension cap), every shape and axis permutation", "why_tests_cant": "Implemented by a sequence of 4-d transposes; rank and shape unbounded.", "anchors": ["util/bigdim.py:transpose", "my_pyscf/lassi/op_o1/utilities.py:transpose_sivec_make_fragments_slow", "my_pyscf/lassi/op_o1/utilities.py:transpose_sivec_with_slow_fragments"]}
{"id": "C15", "title": "Spinorbital reordering index is a permutation that separates spins", "statement": "spin_shuffle_idx(norb_f) is a permutation of 0..2N-1 whose first N entries are exactly the alpha spinorbitals of the fragment-major layout in order and whose last N entries the beta ones.", "quantifier": "every list of fragment orbital counts", "why_tests_cant": "Unbounded list lengths.", "anchors": ["my_pyscf/lassi/op_o1/utilities.py:spin_shuffle_idx"]}
{"id": "C16", "title": "Contiguous-block decomposition of a mask is exact", "statement": "get_contig_blks returns maximal runs: copying src[srcstart:srcstart+len] to dest[deststart:deststart+len] for every block moves the compressed array onto exactly the True positions, in order. The three returned lists have equal length.", "quantifier": "every boolean mask", "why_tests_cant": "All masks; boundary cases (all False, trailing True) matter.", "anchors": ["my_pyscf/lassi/op_o1/utilities.py:get_contig_blks"]}
{"id": "C17", "title": "Thread splitting tiles the array", "statement": "split_contig_array returns consecutive, non-overlapping, non-empty blocks that cover [0,arrlen) exactly and whose sizes differ by at most one, for any positive length and thread count; zero length raises.", "quantifier": "every array length and thread count", "why_tests_cant": "Unbounded integers.", "anchors": ["my_pyscf/lassi/op_o1/utilities.py:split_contig_array"]}
{"id": "C18", "title": "Thread-partitioned reductions do not depend on the number of threads", "statement": "The chunk arithmetic used by the parallel density-matrix accumulation assigns every index to exactly one thread for any thread count, so the accumulated array equals the sequential one over any exact ring.", "quantifier": "every array length, thread count and update list", "why_tests_cant": "Thread counts and lengths unbounded.", "anchors": ["lib/lassi/rdm.c:LASSIRDMdsumSD"]}
{"id": "C19", "title": "RDM scatter address decoding is a bijection within bounds", "statement": "The index decoding used when scattering one- and two-body fragment density matrices touches every element of the destination block exactly once and never leaves the buffer.", "quantifier": "every orbital count and index map", "why_tests_cant": "Unbounded dimensions.", "anchors": ["lib/lassi/rdm.c:LASSIRDMdputSD1", "lib/lassi/rdm.c:LASSIRDMdputSD2"]}
{"id": "C20", "title": "Rootspace equality and hashing obey the container contract", "statement": "Rootspaces that compare equal have equal hashes, so putting them in a set removes duplicates.", "quantifier": "all pairs of rootspaces", "why_tests_cant": "Depends on the entanglement-map field, which unit tests leave empty.", "anchors": ["my_pyscf/lassi/spaces.py:SingleLASRootspace.__eq__", "my_pyscf/lassi/spaces.py:SingleLASRootspace.__hash__"]}
{"id": "C21", "title": "Single excitations conserve electrons and spin projection", "statement": "Every rootspace returned by get_single / get_single_any_m / get_singles has the same total electron number and the same total spin projection as its parent, has non-negative hole and electron counts in the changed fragments, and differs from it in the intended fragments only; get_singles moves exactly one electron of one spin between two different fragments.", "quantifier": "every parent rootspace and every excitation argument for which a result is returned", "why_tests_cant": "All charge/spin vectors.", "anchors": ["my_pyscf/lassi/spaces.py:SingleLASRootspace.get_single", "my_pyscf/lassi/spaces.py:SingleLASRootspace.get_single_any_m", "my_pyscf/lassi/spaces.py:SingleLASRootspace.get_singles"]}
{"id": "C22", "title": "Allowed multiplicity changes are exactly the realizable ones", "statement": "get_valid_smult_change returns exactly those of {-1,+1} for which the resulting multiplicity is realizable with the new alpha and beta counts in that many orbitals, provided the original rootspace was realizable.", "quantifier": "every fragment occupation, orbital count and multiplicity", "why_tests_cant": "Range arithmetic over unbounded integers.", "anchors": ["my_pyscf/lassi/spaces.py:SingleLASRootspace.get_valid_smult_change"]}
{"id": "C23", "title": "Spin-shuffle table is exactly the set of local projections", "statement": "make_spin_shuffle_table returns, without repetition, exactly the vectors m with |m_i| <= s_i, m_i = s_i mod 2 and the given total, where s_i = smult_i - 1.", "quantifier": "every list of multiplicities and every admissible total projection", "why_tests_cant": "Iterative pruning over any number of fragments.", "anchors": ["my_pyscf/lassi/spaces.py:SingleLASRootspace.make_spin_shuffle_table"]}
{"id": "C24", "title": "Multiplicity-shuffle table is exactly the set of genealogical couplings", "statement": "make_smult_shuffle_table(smult) returns, without repetition, exactly the step vectors whose partial sums start at s_1 and obey the angular-momentum triangle rule at every fragment and end at the requested total spin; it is empty when the total is out of range.", "quantifier": "every list of multiplicities and every requested total multiplicity of right parity", "why_tests_cant": "Path counting over any number of fragments.", "anchors": ["my_pyscf/lassi/spaces.py:SingleLASRootspace.make_smult_shuffle_table"]}
{"id": "C25", "title": "Projection count equals the sum of coupling counts", "statement": "The number of local spin-projection vectors with total projection M equals the sum over total spins S >= |M| of the number of genealogical couplings to S, so that spin-coupled and uncoupled bases have the same dimension.", "quantifier": "every list of multiplicities and every M", "why_tests_cant": "Combinatorial identity over all lists.", "anchors": ["my_pyscf/lassi/spaces.py:SingleLASRootspace.make_spin_shuffle_table", "my_pyscf/lassi/spaces.py:SingleLASRootspace.make_smult_shuffle_table", "my_pyscf/lassi/basis.py:get_spincoup_umat"]}
{"id": "C26", "title": "Orthogonality by multiplicity is sound and complete", "statement": "is_orthogonal_by_smult returns True exactly when, for rootspaces of equal spin parity, no total spin can be reached by coupling the local spins of both.", "quantifier": "all pairs of multiplicity lists", "why_tests_cant": "All lists.", "anchors": ["my_pyscf/lassi/spaces.py:SingleLASRootspace.is_orthogonal_by_smult"]}
{"id": "C27", "title": "Rootspace filtering by target multiplicity keeps exactly the rootspaces able to reach it", "statement": "filter_spaces(target_any_smult=T) keeps a rootspace iff its local spins can couple to at least one multiplicity in T; target_all_smult iff to all of them; the charge and multiplicity windows are kept exactly.", "quantifier": "every rootspace table and every target list", "why_tests_cant": "Needs quantification over target lists.", "anchors": ["my_pyscf/lassi/spaces.py:filter_spaces"]}
{"id": "C28", "title": "Spin shuffling closes the space and is idempotent", "statement": "_spin_shuffle keeps all reference rootspaces first and in order, adds only rootspaces with same charges, multiplicities and total projection, every local-projection arrangement of every reference is present, and shuffling a second time adds nothing; new rootspaces carry weight 0 (or all weights are equal and sum to one).", "quantifier": "every list of reference rootspaces", "why_tests_cant": "Closure over all rootspace lists.", "anchors": ["my_pyscf/lassi/spaces.py:_spin_shuffle", "my_pyscf/lassi/spaces.py:spin_shuffle"]}
{"id": "C29", "title": "Excitation generation preserves references and never duplicates", "statement": "all_single_excitations returns the reference rootspaces first, in order and with unchanged weights, followed by pairwise distinct new rootspaces of weight 0, each a single excitation of some reference; every legal single excitation of a reference is present.", "quantifier": "every list of reference rootspaces and mask", "why_tests_cant": "Closure over all lists.", "anchors": ["my_pyscf/lassi/spaces.py:all_single_excitations"]}
{"id": "C30", "title": "Combining orthogonal excitations is consistent", "statement": "For excitations of the same reference acting on disjoint fragments, combine_orthogonal_excitations gives the same charges and multiplicities in either order, keeps total electron number, and with flexible_m returns a rootspace with the reference total projection and admissible local projections whenever one exists (its assertions cannot fail).", "quantifier": "every reference and every pair of disjoint excitations", "why_tests_cant": "Greedy projection adjustment over unbounded vectors.", "anchors": ["my_pyscf/lassi/spaces.py:combine_orthogonal_excitations", "my_pyscf/lassi/spaces.py:orthogonal_excitations"]}
{"id": "C31", "title": "Spin-shuffle relation is an equivalence and manifolds partition the list", "statement": "is_spin_shuffle_of is reflexive, symmetric and transitive, and the grouping loop of filter_single_excitation_spin_shuffles puts every rootspace in exactly one manifold, with members of one manifold mutually related and of different ones not.", "quantifier": "every list of rootspaces", "why_tests_cant": "All lists.", "anchors": ["my_pyscf/lassi/spaces.py:SingleLASRootspace.is_spin_shuffle_of", "my_pyscf/lassi/spaces.py:filter_single_excitation_spin_shuffles"]}
{"id": "C32", "title": "Spin rotation tables cover every projection with non-vanishing normalization", "statement": "get_ci_szrot returns for each fragment one entry for every projection -s, -s+2, ..., s and only those, and no ladder normalization factor used on the way is zero; lowering then raising multiplies the two normalizations consistently, so mup undoes mdown.", "quantifier": "every fragment multiplicity, starting projection and electron number", "why_tests_cant": "Loop bounds over all spins.", "anchors": ["my_pyscf/lassi/spaces.py:SingleLASRootspace.get_ci_szrot", "my_pyscf/fci/spin_op.py:norm_sdown", "my_pyscf/fci/spin_op.py:norm_sup", "my_pyscf/fci/spin_op.py:mdown", "my_pyscf/fci/spin_op.py:mup"]}
{"id": "C33", "title": "Block addressing of the orthonormal basis is a bijection", "statement": "split_addrs_by_blocks maps each orthonormal-basis address to the one block containing it with its column inside the block, and every (block,column) pair arises from exactly one address.", "quantifier": "every list of block sizes and address lists", "why_tests_cant": "Search over cumulative offsets of any length.", "anchors": ["my_pyscf/lassi/basis.py:OrthBasis.split_addrs_by_blocks"]}
{"id": "C34", "title": "Spin-shift of guess vectors is block aligned", "statement": "Shifting a guess vector between total multiplicities (SmultShifter) maps the coefficients of each rootspace manifold from its own block in the source basis to its own block in the target basis.", "quantifier": "every list of manifolds with any set of supported multiplicities", "why_tests_cant": "Misalignment needs a manifold lacking one of the two multiplicities in the middle of the list.", "anchors": ["my_pyscf/lassi/basis.py:SmultShifter._matvec"]}
{"id": "C35", "title": "Occupation-address tables are consistent", "statement": "In the Fock-space tools, converting a vector from a fixed-particle-number representation to Fock space and back gives the same vector, entries of other particle numbers are zero, and the table of particle numbers equals the bit count of the address.", "quantifier": "every orbital count, particle number and vector", "why_tests_cant": "Exponential domain.", "anchors": ["exploratory/citools/fockspace.py:hilbert2fock", "exploratory/citools/fockspace.py:fock2hilbert", "exploratory/citools/fockspace.py:ADDRS_NELEC"]}
{"id": "C36", "title": "Coupled-cluster factor touches each amplitude pair once", "statement": "In the factorized unitary CC kernel, the spectator expansion enumerates every determinant pair (occupied string, excited string) compatible with the excitation exactly once, pairs never overlap, and therefore the result does not depend on the thread schedule.", "quantifier": "every orbital count (below the machine word), every excitation and every amplitude vector", "why_tests_cant": "Exponentially many determinants.", "anchors": ["lib/fsucc.c:FSUCCcontract1"]}
{"id": "C37", "title": "Coupled-cluster factor is invertible by amplitude negation", "statement": "Applying the factor with amplitude t and then with -t restores the vector, and the norm is preserved, over any field with c^2+s^2=1.", "quantifier": "every excitation, amplitude and vector", "why_tests_cant": "Needs all vectors.", "anchors": ["lib/fsucc.c:FSUCCcontract1", "lib/fsucc.c:FSUCCmixdetu"]}
{"id": "C38", "title": "Excitation projector is idempotent", "statement": "FSUCCprojai zeroes exactly the determinants outside the requested occupation pattern and is idempotent.", "quantifier": "every pattern and vector", "why_tests_cant": "All bit patterns.", "anchors": ["lib/fsucc.c:FSUCCprojai"]}
{"id": "C39", "title": "Triangular index enumeration is a bijection", "statement": "The packed lower-triangular index used by the full-hop kernel visits each pair q <= p exactly once at position p(p+1)/2+q.", "quantifier": "every orbital count", "why_tests_cant": "Unbounded index.", "anchors": ["lib/fsucc.c:_fullhop_"]}
{"id": "C40", "title": "Vacuum and spin shuffles of SI vectors are involutions", "statement": "sivec_fermion_spin_shuffle and sivec_vacuum_shuffle multiply each coefficient by a sign only, so applying either twice gives back the input, norms are preserved, and each product state's sign depends only on its rootspace.", "quantifier": "every SI vector, rootspace table and fragment layout", "why_tests_cant": "All vectors.", "anchors": ["my_pyscf/lassi/sitools.py:sivec_fermion_spin_shuffle", "my_pyscf/lassi/sitools.py:sivec_vacuum_shuffle"]}
{"id": "C41", "title": "Checkpointing a LASSCF calculation round-trips", "statement": "Loading a checkpoint that was completely written gives back the saved orbitals, quantum numbers and CI vectors, including ragged and missing (None) entries.", "quantifier": "every saved calculation", "why_tests_cant": "All data shapes.", "anchors": ["my_pyscf/mcscf/chkfile.py:dump_las", "my_pyscf/mcscf/chkfile.py:load_las_"]}
{"id": "C42", "title": "An interrupted checkpoint is detected on load", "statement": "If the process is killed at any point while dump_las is replacing a checkpoint, a later load either fails or returns entirely one of the two saved calculations, never a mixture.", "quantifier": "every crash point between two file operations and all pairs of saved calculations", "why_tests_cant": "Crash points are not exercised by tests.", "anchors": ["my_pyscf/mcscf/chkfile.py:dump_las", "my_pyscf/lassi/chkfile.py", "my_pyscf/lassi/lassis/chkfile.py"]}
{"id": "C43", "title": "Value filters of the intermediate checkpoint round-trip", "statement": "Saving and reloading the op_o1 intermediate tables returns equal values for nested lists, tuples, dictionaries, None, integers and arrays.", "quantifier": "every nested value", "why_tests_cant": "Recursive data.", "anchors": ["my_pyscf/lassi/op_o1/chkfile.py"]}
{"id": "C44", "title": "A consistent intermediate checkpoint can be loaded", "statement": "FragTDMInt.load_chk_ succeeds on a checkpoint written by the same object.", "quantifier": "every non-empty table", "why_tests_cant": "Path is not covered by tests.", "anchors": ["my_pyscf/lassi/op_o1/frag.py:FragTDMInt.load_chk_"]}
{"id": "C45", "title": "Product-state solver reports convergence only if everything converged", "statement": "ProductStateFCISolver.kernel reports converged = True only when energy, gradient and all fragment CI solvers converged in the final cycle.", "quantifier": "every history of fragment-solver outcomes", "why_tests_cant": "Requires a failing fragment solver.", "anchors": ["my_pyscf/mcscf/productstate.py:ProductStateFCISolver.kernel"]}
{"id": "C46", "title": "State-average mixed solver reports convergence only if every solver converged", "statement": "StateAverageNMixFCISolver.kernel sets converged True iff all component solvers converged.", "quantifier": "every list of component outcomes", "why_tests_cant": "Requires failing components.", "anchors": ["my_pyscf/mcscf/addons.py:StateAverageNMixFCISolver.kernel"]}
{"id": "C47", "title": "LASSI reports convergence only if every symmetry block converged", "statement": "After lassi(), the convergence flag is True only if the diagonalization of every symmetry block converged.", "quantifier": "every number of blocks and every outcome sequence", "why_tests_cant": "Multi-block failing cases are not tested.", "anchors": ["my_pyscf/lassi/lassi.py:lassi"]}
{"id": "C48", "title": "LASSI keyword arguments reach the diagonalizer", "statement": "Passing nroots_si, level_shift_si or privref_si to LASSI.kernel changes the number of roots, level shift or privileged-reference setting used by the diagonalizer.", "quantifier": "every keyword value", "why_tests_cant": "The defaults mask the effect.", "anchors": ["my_pyscf/lassi/lassi.py:LASSI.kernel", "my_pyscf/lassi/sisolver.py:SISolver"]}
{"id": "C49", "title": "Symmetry-block assembly returns eigenvectors in the original order", "statement": "The eigenvector matrix returned by lassi() has its rows in the original product-state order and its columns in ascending energy, whatever order the symmetry blocks are processed in.", "quantifier": "every partition of the product states into blocks, every block order", "why_tests_cant": "The blocks come from an unordered set.", "anchors": ["my_pyscf/lassi/lassi.py:lassi", "my_pyscf/lassi/lassi.py:iterate_subspace_blocks"]}
{"id": "C50", "title": "Temporary sub-calculation state is always restored", "statement": "Processing symmetry blocks leaves the LAS object's solvers and energies as they were, even if the consumer raises.", "quantifier": "every block sequence and every point at which an exception is raised", "why_tests_cant": "Exception points.", "anchors": ["my_pyscf/lassi/lassi.py:_LASSI_subspace_env"]}
{"id": "C51", "title": "Cumulant decomposition round-trips", "statement": "Building the two-body density matrix from its cumulant and then extracting the cumulant gives it back, and vice versa, for spin-summed and spin-separated forms.", "quantifier": "all tensors over a commutative ring of any size", "why_tests_cant": "All tensors.", "anchors": ["util/rdm.py:get_2CDM_from_2RDM", "util/rdm.py:get_2RDM_from_2CDM"]}
{"id": "C52", "title": "Orbital energy decomposition sums to the total energy", "statement": "The entries returned by electronic_energy_orbital_decomposition sum to the total electronic energy.", "quantifier": "all integrals and density matrices", "why_tests_cant": "All tensors.", "anchors": ["util/rdm.py:electronic_energy_orbital_decomposition"]}
{"id": "C53", "title": "Energy from density matrices uses the physical prefactors", "statement": "get_E_from_RDMs returns E0 + <h1,D1> + 1/2 <h2,D2>.", "quantifier": "all integrals and density matrices", "why_tests_cant": "Needs a reference independent of the code.", "anchors": ["util/rdm.py:get_E_from_RDMs"]}
{"id": "C54", "title": "Fragment effective Hamiltonian reproduces the total energy", "statement": "For every fragment, the effective constant plus one-body plus half the two-body contraction produced by project_hfrag equals the total product-state energy.", "quantifier": "all integrals with permutational symmetry, all fragment density matrices, any number of fragments", "why_tests_cant": "All tensors.", "anchors": ["my_pyscf/mcscf/productstate.py:ProductStateFCISolver.project_hfrag", "my_pyscf/mcscf/productstate.py:ProductStateFCISolver.energy_elec"]}
{"id": "C55", "title": "Serial-fragment schedule is fair", "statement": "In serialfrag mode each fragment is optimized exactly once in every window of nfrag consecutive macro-cycles, and the others are left unchanged.", "quantifier": "every number of fragments and cycles", "why_tests_cant": "Unbounded number of cycles.", "anchors": ["my_pyscf/mcscf/productstate.py:ProductStateFCISolver._1shot"]}
{"id": "C56", "title": "Excited-fragment bookkeeping stays sorted and consistent", "statement": "After any sequence of set_excited_fragment_ calls, the list of excited fragments is strictly increasing and aligned with the list of solvers, and each fragment's solver has the electron numbers, multiplicity, spin, charge and weights of the last call for it. The orbital order used for the excited-fragment Hamiltonian lists the excited fragments' orbitals first, in the order of the solvers.", "quantifier": "every history of calls, every valid argsort", "why_tests_cant": "Unbounded histories.", "anchors": ["my_pyscf/lassi/lassis/excitations.py:ExcitationPSFCISolver.set_excited_fragment_", "my_pyscf/lassi/lassis/excitations.py:ExcitationPSFCISolver.get_excited_h"]}
{"id": "C57", "title": "Dummy-orbital padding round-trips", "statement": "read_orbital undoes add_orbital for every occupation of the added orbital. The entry of the padded vector at a determinant is zero unless the added orbital has the requested occupation; then it is the entry of the original vector at the determinant without that orbital, times the fermion sign of bringing the added creation operators into the standard order.", "quantifier": "every orbital/electron count and CI vector", "why_tests_cant": "Combinatorial dimensions.", "anchors": ["my_pyscf/fci/dummy.py:add_orbital", "my_pyscf/fci/dummy.py:read_orbital"]}
{"id": "C58", "title": "Parallel keyframe merging averages all keyframes", "statement": "Combining several keyframes gives each fragment the active orbitals and CI vectors of the keyframe responsible for it (the reference keyframe's if none is), and builds the non-active orbitals from the average of all their potentials and density matrices.", "quantifier": "every list of keyframes", "why_tests_cant": "Lists of any length, any distribution of fragments.", "anchors": ["my_pyscf/mcscf/lasscf_async/combine.py:orth_orb"]}
{"id": "C59", "title": "Active-active block selection contains the largest gradient pair", "statement": "select_aa_block returns fragments drawn from the two lists, without repetition, containing a pair (one from each) with the largest gradient block; its size is the smaller of the number of candidates and max_frags, but at least two; the further fragments are those coupling most strongly to that pair.", "quantifier": "every gradient table, every pair of disjoint non-empty lists, every limit", "why_tests_cant": "All tables.", "anchors": ["my_pyscf/mcscf/lasscf_async/combine.py:select_aa_block"]}
{"id": "C60", "title": "LASSIS coordinate packing round-trips and has the advertised length", "statement": "unpack(pack(x)) = x up to the antisymmetric gauge and len(pack(x)) = nvar_tot for every set of coordinate shapes.", "quantifier": "every LASSIS structure", "why_tests_cant": "Shapes differ only in asymmetric systems.", "anchors": ["my_pyscf/lassi/lassis/coords.py:UnitaryGroupGenerators"]}
{"id": "C61", "title": "Changing the state-average list keeps CI vectors attached to their states", "statement": "state_average_ carries an old CI vector to the new state with identical quantum numbers and to no other, and leaves the rest unset (raising an error if an old state matches two new ones); get_space_info then returns the requested table, provided each requested spin has the parity of the fragment's electron number after charging (otherwise the spin is kept and the reported charge is one more than requested).", "quantifier": "every old and new table of quantum numbers, any number of fragments and states", "why_tests_cant": "Tests use a few tables; the mapping must be right for every pair of tables.", "anchors": ["my_pyscf/mcscf/lasci.py:state_average_", "my_pyscf/mcscf/lasci.py:get_space_info", "my_pyscf/mcscf/addons.py:StateAverageNMixFCISolver._get_nelec"]}
{"id": "C62", "title": "Duplicate detection is exact", "statement": "assert_no_duplicates raises iff two states have identical quantum numbers in all fragments.", "quantifier": "every table", "why_tests_cant": "All tables.", "anchors": ["my_pyscf/mcscf/lasci.py:assert_no_duplicates"]}
{"id": "C63", "title": "Single excitations between rootspaces are recognized and described correctly", "statement": "For any two rootspaces over the same fragments whose quantum numbers are possible, the test for being a single excitation answers yes exactly when one rootspace arises from the other by moving one alpha or beta electron from one fragment to another with both multiplicities changing by one; the description then names the right source, destination, electron spin and direction of the two multiplicity changes, and is None otherwise; two single excitations of one reference that move an electron of the same spin and have the same key are the same rootspace; and a list of electron moves is reported possible exactly when every fragment has enough electrons and holes of each spin.", "quantifier": "all pairs of rootspaces with any number of fragments and any possible quantum numbers; all lists of moves", "why_tests_cant": "the classification decides which LASSIS charge-hop classes share a fragment state and must be right for every pair of rootspaces, not for the few that appear in a test molecule", "anchors": ["my_pyscf/lassi/spaces.py:SingleLASRootspace.is_single_excitation_of", "my_pyscf/lassi/spaces.py:SingleLASRootspace.describe_single_excitation", "my_pyscf/lassi/spaces.py:SingleLASRootspace.single_excitation_key", "my_pyscf/lassi/spaces.py:SingleLASRootspace.possible_excitation"]}
{"id": "C64", "title": "Raw block addressing matches the product-state table", "statement": "For a partition of the rootspaces into blocks, split_addrs_by_rblocks returns for the raw address at position col of the product-state table of block blk exactly (blk, col), and every raw address occurs in the table.", "quantifier": "every list of rootspace sizes (also zero), every partition into blocks, every address", "why_tests_cant": "Unbounded numbers of rootspaces, sizes and orders.", "anchors": ["my_pyscf/lassi/basis.py:OrthBasis.split_addrs_by_rblocks", "my_pyscf/lassi/basis.py:RootspaceManifold.__init__", "my_pyscf/lassi/basis.py:OrthBasis.__init__"]}
{"id": "C65", "title": "Basis transformation and its reverse are adjoint", "statement": "Transforming an SI vector from the orthonormal to the primitive basis is the adjoint of the forward transformation, for the plain and the spin-coupled basis; without linear dependencies the plain transformations are inverse to each other.", "quantifier": "every manifold list with blocks of equal size and no repeated rootspace, every pair of vectors, every transformation matrix", "why_tests_cant": "Holds for all matrices and all vectors.", "anchors": ["my_pyscf/lassi/basis.py:OrthBasis._matvec", "my_pyscf/lassi/basis.py:OrthBasis._rmatvec", "my_pyscf/lassi/basis.py:SpinCoupledOrthBasis._matvec", "my_pyscf/lassi/basis.py:SpinCoupledOrthBasis._rmatvec"]}
{"id": "C66", "title": "Coupled-cluster kernels apply the documented operators", "statement": "FSUCCcontract1g adds g a0'a1'...i1i0|Psi> to the output, with the fermionic signs of the elementary creation and annihilation operators in the documented operator order, for non-normal-ordered and non-number-conserving strings too; FSUCCcontract1u applies exp(t[a0'a1'...i1i0 - h.c.]).", "quantifier": "every orbital count, every pair of index strings (also with repeated or shared orbitals), every amplitude, vector and thread schedule", "why_tests_cant": "the sign depends on every occupation of every spectator orbital; tests only sample small operators", "anchors": ["lib/fsucc.c:FSUCCcontract1", "lib/fsucc.c:FSUCCcontract1g", "lib/fsucc.c:FSUCCcontract1u"]}
{"id": "C67", "title": "Amplitude derivative of a coupled-cluster factor", "statement": "Rotating with the amplitude increased by pi/2 and projecting onto the interacting determinants gives the derivative of the rotated vector with respect to the amplitude; the code comment claims this also without the projection.", "quantifier": "every excitation, amplitude and vector", "why_tests_cant": "holds as an identity of functions of a real amplitude", "anchors": ["lib/fsucc.c:FSUCCcontract1u", "lib/fsucc.c:FSUCCprojai", "exploratory/unitary_cc/uccsd_sym0.py:FSUCCOperator.get_deriv1"]}
{"id": "C68", "title": "FSUCCcontractS2 applies the total-spin operator", "statement": "The S^2 kernel returns S-S+ + Sz(Sz+1) applied to the vector, with the spin-up orbitals stored first.", "quantifier": "every orbital count and vector", "why_tests_cant": "operator identity over all determinants and all sizes", "anchors": ["lib/fsucc.c:FSUCCcontractS2"]}
{"id": "C69", "title": "Factorized coupled-cluster operator is unitary", "statement": "A generator list accepted by FSUCCOperator's constructor consists of in-range, repetition-free, pairwise distinct excitations, and then applying the operator followed by transpose=True restores the vector, inner products are preserved and the transpose is the adjoint, whatever array type the caller passes.", "quantifier": "every orbital count, accepted generator list, amplitudes, vector and array layout", "why_tests_cant": "holds for all real amplitudes and vectors; the in-place C call silently works on a copy for other layouts", "anchors": ["exploratory/unitary_cc/uccsd_sym0.py:FSUCCOperator.__call__", "exploratory/unitary_cc/uccsd_sym0.py:FSUCCOperator.assert_sanity", "exploratory/unitary_cc/uccsd_sym0.py:_op1u_"]}
{"id": "C70", "title": "get_deriv1 is the amplitude derivative", "statement": "FSUCCOperator.get_deriv1 returns the derivative of U|psi> (or of its transpose applied to |psi>) with respect to the amplitude of the chosen generator.", "quantifier": "every accepted generator list, generator number, amplitudes, vector and direction", "why_tests_cant": "derivative of a product of any number of non-commuting factors at every real amplitude", "anchors": ["exploratory/unitary_cc/uccsd_sym0.py:FSUCCOperator.get_deriv1"]}
{"id": "C71", "title": "gen_deriv1 yields every derivative", "statement": "Iterating FSUCCOperator.gen_deriv1 yields, in order (reverse order for transpose=True), exactly the vectors that separate get_deriv1 calls return, reusing the partially transformed vector between steps.", "quantifier": "every generator list, direction and vector", "why_tests_cant": "loop-carried cache over any number of generators", "anchors": ["exploratory/unitary_cc/uccsd_sym0.py:FSUCCOperator.gen_deriv1"]}
{"id": "C72", "title": "UCC energy gradient is exact", "statement": "The gradient returned by the UCC objective function is the gradient of the returned energy with respect to the amplitudes.", "quantifier": "every accepted generator list, amplitudes, reference vector and symmetric Hamiltonian", "why_tests_cant": "identity over all real amplitudes and numbers of generators; finite differences only sample", "anchors": ["exploratory/unitary_cc/uccsd_sym0.py:UCCS.get_obj_fun", "exploratory/unitary_cc/uccsd_sym0.py:FSUCCOperator.gen_partial"]}
{"id": "C73", "title": "UCC Hamiltonian contraction", "statement": "_op1h_spinsym applies h0 + sum over ranks of 1/k! times the packed k-body integrals with all spin assignments, and this is a symmetric matrix.", "quantifier": "every orbital count, number of ranks, integrals and vector", "why_tests_cant": "all ranks, sizes and determinants", "anchors": ["exploratory/unitary_cc/uccsd_sym0.py:_op1h_spinsym", "lib/fsucc.c:FSUCCfullhop"]}
{"id": "C74", "title": "Number operators count electrons", "statement": "number_operator returns the input vector with every coefficient multiplied by its number of spin-up, respectively spin-down, electrons.", "quantifier": "every orbital count up to the supported maximum and every vector", "why_tests_cant": "exponentially many determinants, arbitrary coefficients", "anchors": ["exploratory/citools/fockspace.py:number_operator"]}
{"id": "C75", "title": "Fock-space spin-shuffle table", "statement": "Every element of the Fock-space fermion_spin_shuffle table is the sign of reordering the creation operators of that determinant from fragment-major to spin-major order.", "quantifier": "every fragment layout and pair of determinants", "why_tests_cant": "exponentially many determinants and layouts", "anchors": ["exploratory/citools/fockspace.py:fermion_spin_shuffle"]}
{"id": "C76", "title": "Fock-space fragment-shuffle table", "statement": "Every element of the Fock-space fermion_frag_shuffle table is the sign of moving the creation operators of the occupied orbitals in [i,j) to the left end of the determinant.", "quantifier": "every orbital count, orbital range and determinant", "why_tests_cant": "exponentially many determinants; the products are computed in 8 bits", "anchors": ["exploratory/citools/fockspace.py:fermion_frag_shuffle"]}
{"id": "C77", "title": "Determinant printing is faithful", "statement": "onv_str never fails its assertion and prints one of 0, a, b, 2 for every orbital, highest orbital first.", "quantifier": "every pair of strings and orbital count", "why_tests_cant": "unbounded strings", "anchors": ["exploratory/citools/fockspace.py:onv_str"]}
{"id": "C78", "title": "A repeated LASSI calculation reports its own convergence", "statement": "After LASSI.kernel, the converged flag tells whether this call's diagonalization (and the state preparation) converged; an earlier failed call does not matter.", "quantifier": "every history of kernel calls and diagonalization outcomes", "why_tests_cant": "Requires a failing first call followed by a successful one.", "anchors": ["my_pyscf/lassi/lassi.py:LASSI.kernel"]}
{"id": "C79", "title": "Spin expectation value from density matrices", "statement": "S2_exptval(D, P) equals (3N - sum_pq (2 P_pqqp + P_ppqq))/4, the formula of its docstring, for every one- and two-body density matrix obeying the trace rule sum_pq P_ppqq = N(N-1); giving it the cumulant instead of P with cumulant=True changes nothing.", "quantifier": "all spin-summed density matrices of any size", "why_tests_cant": "All tensors.", "anchors": ["util/rdm.py:S2_exptval", "util/rdm.py:get_2CDM_from_2RDM"]}
{"id": "C80", "title": "Product states have no inter-fragment cumulant", "statement": "The cumulant of the two-body density matrix built by ProductStateFCISolver.make_rdm2 (with make_rdm1s) is zero whenever the four orbitals do not all belong to one fragment.", "quantifier": "every number and size of fragments, all fragment densities with symmetric one-body part", "why_tests_cant": "All tensors and fragmentations.", "anchors": ["my_pyscf/mcscf/productstate.py:ProductStateFCISolver.make_rdm2", "my_pyscf/mcscf/productstate.py:ProductStateFCISolver.make_rdm1s", "util/rdm.py:get_2CDM_from_2RDM"]}
{"id": "C81", "title": "The recombination tournament loses no fragment", "statement": "Starting from one keyframe per fragment, the pairwise recombination of a macrocycle ends after ceil(log2 n) rounds with exactly one keyframe, never combines keyframes responsible for the same fragment, and the final keyframe contains every fragment's update of this macrocycle.", "quantifier": "every number of fragments, every gradient, every limit combine_pair_max_frags", "why_tests_cant": "Test systems have two to four fragments; the loss needs at least five and a non-default limit.", "anchors": ["my_pyscf/mcscf/lasscf_async/lasscf_async.py:kernel", "my_pyscf/mcscf/lasscf_async/combine.py:combine_pair", "my_pyscf/mcscf/lasscf_async/crunch.py:ImpuritySolver._push_keyframe"]}
{"id": "C82", "title": "The two-body density matrix of all fragments is that of the product state", "statement": "For a product of fragment states with definite electron numbers, every element of the spin-summed two-body density matrix returned by make_casdm2 (state average) and state_make_casdm2 (one state) is the expectation value of the corresponding creation and annihilation operators in the antisymmetric product of the fragment states, given the fragments' own one- and two-body density matrices.", "quantifier": "every number and size of fragments, every number of rootspaces and weights, every four orbitals, all fragment states of definite number and spin projection with symmetric one-body density matrices", "why_tests_cant": "A test compares energies for a few molecules with two or three fragments; the element-by-element identity is over all fragmentations, orbitals and states.", "anchors": ["my_pyscf/mcscf/lasci.py:LASCINoSymm.make_casdm2", "my_pyscf/mcscf/lasci.py:LASCINoSymm.state_make_casdm2"]}
{"id": "C83", "title": "The spin-separated two-body density matrix is that of the product state", "statement": "Each spin component (aa, ab, bb) of the two-body density matrix returned by make_casdm2s is the state average of the expectation values of the corresponding operators in the product of the fragment states.", "quantifier": "every fragmentation, weights, four orbitals and fragment states", "why_tests_cant": "Singlet or symmetric test systems hide a component assigned to the wrong spin.", "anchors": ["my_pyscf/mcscf/lasci.py:LASCINoSymm.make_casdm2s"]}
{"id": "C84", "title": "The three-body density matrix of all fragments is that of the product state", "statement": "Every element of the spin-summed three-body density matrix returned by make_casdm3 is the state average of the expectation values of the corresponding operators in the product of the fragment states, given the fragments' one-, two- and three-body density matrices.", "quantifier": "every number and size of fragments, weights, six orbitals and fragment states of definite number and spin projection", "why_tests_cant": "Eight kinds of terms, each with up to six index permutations, over all fragment triples; tests have few fragments, one rootspace and closed shells.", "anchors": ["my_pyscf/mcscf/lasci.py:LASCINoSymm.make_casdm3"]}
{"id": "C85", "title": "The spin-separated three-body density matrix is that of the product state", "statement": "Each spin component (aaa, aab, abb, bbb) of the three-body density matrix returned by make_casdm3s is the state average of the expectation values of the corresponding operators in the product of the fragment states.", "quantifier": "every fragmentation, weights, six orbitals and fragment states", "why_tests_cant": "A mis-assigned spin is invisible for fragments with equal alpha and beta densities and needs three fragments in a particular order.", "anchors": ["my_pyscf/mcscf/lasci.py:LASCINoSymm.make_casdm3s"]}
{"id": "C86", "title": "Orbital rotations are the nonredundant ones, each once", "statement": "The coordinates of a LASSCF orbital optimization contain each pair of orbitals from two different classes (inactive, each fragment, virtual) exactly once, no pair within a class, no pair with a frozen orbital and, with point-group symmetry, no pair of different irreps. In LASPSCF they are the pairs with both or neither orbital active, and the external-gradient set is exactly the rest.", "quantifier": "every number of orbitals, core size, fragmentation, frozen list and irrep labelling, every pair", "why_tests_cant": "Tests use two or three fragmentations; a missing or doubled rotation only slows or spoils convergence.", "anchors": ["my_pyscf/mcscf/lasscf_sync_o0.py:all_nonredundant_idx", "my_pyscf/mcscf/lasscf_sync_o0.py:LASSCF_UnitaryGroupGenerators", "my_pyscf/mcscf/laspscf.py:LASPSCF_UnitaryGroupGenerators"]}
{"id": "C87", "title": "Packed LASSCF coordinates lose nothing", "statement": "pack(unpack(x)) = x for every vector of the right length; unpack gives an antisymmetric rotation that vanishes outside the coordinates, CI vectors of the right shape and zeros for frozen fragments; unpack(pack(kappa, ci)) gives back every rotation and set of CI vectors the coordinates can express; the length assertion in pack holds.", "quantifier": "every mask, number of fragments and states, frozen set, vector", "why_tests_cant": "Unbounded numbers of fragments, states and coefficients; frozen fragments are rarely tested.", "anchors": ["my_pyscf/mcscf/lasscf_sync_o0.py:LASSCF_UnitaryGroupGenerators.pack", "my_pyscf/mcscf/lasscf_sync_o0.py:LASSCF_UnitaryGroupGenerators.unpack", "my_pyscf/mcscf/lasscf_sync_o0.py:LASSCF_UnitaryGroupGenerators.nvar_tot"]}
{"id": "C88", "title": "A coordinate is identified correctly", "statement": "For every address below the length of the packed vector, addr2idstr names the orbital pair, or the fragment, state and configuration, whose value pack stores at that address.", "quantifier": "every address, fragmentation, number of states and frozen set", "why_tests_cant": "It is only called in log output of the microiterations and its result is not checked.", "anchors": ["my_pyscf/mcscf/lasscf_sync_o0.py:LASSCF_UnitaryGroupGenerators.addr2idstr"]}
{"id": "C89", "title": "The first microiteration step respects the trust radius", "statement": "After the floating level shift is applied, the preconditioned first step is no longer than the trust radius, so the assertion in the kernel never fails.", "quantifier": "every gradient, Hessian diagonal and trust radius, every dimension", "why_tests_cant": "The failure needs a negative Hessian diagonal element at a poor keyframe.", "anchors": ["my_pyscf/mcscf/lasscf_sync_o0.py:get_level_shift", "my_pyscf/mcscf/lasscf_sync_o0.py:kernel", "my_pyscf/mcscf/lasscf_sync_o0.py:LASSCF_HessianOperator.get_prec"]}
{"id": "C90", "title": "An aborted microiteration does not raise the energy", "statement": "When the microiterations become unstable, the step that the kernel takes lowers the energy; it is the first of the successively halved steps that does.", "quantifier": "every keyframe, step vector and energy function", "why_tests_cant": "Depends on the whole energy surface along the step.", "anchors": ["my_pyscf/mcscf/lasscf_sync_o0.py:kernel"]}
{"id": "C91", "title": "Reported convergence belongs to the returned wave function", "statement": "If the synchronous kernel reports convergence, the returned wave function is the first one from macrocycle min_cycle_macro on whose gradient met the criterion; for LASSCF both gradient norms are then below conv_tol_grad. If it does not, no macrocycle from that number on met it and all max_cycle_macro were done.", "quantifier": "every sequence of macrocycles, every tolerance and limits", "why_tests_cant": "All histories of CI solutions and steps.", "anchors": ["my_pyscf/mcscf/lasscf_sync_o0.py:kernel"]}
{"id": "C92", "title": "CI updates keep normalization and frozen fragments", "statement": "The CI update of a step keeps every normalized vector normalized (within the tolerance that is asserted), whatever the step; CI vectors of fragments in frozen_ci are changed neither by the CI cycle nor by the step.", "quantifier": "every vector, step, dimension and frozen set", "why_tests_cant": "Real-valued steps of any size and direction.", "anchors": ["my_pyscf/mcscf/lasscf_sync_o0.py:LASSCF_HessianOperator._update_ci", "my_pyscf/mcscf/lasscf_sync_o0.py:ci_cycle"]}
{"id": "C93", "title": "Product CI vectors have the fragments' coefficients", "statement": "The CI vector that is generated for a product of fragment CI vectors has, on each determinant of the whole active space, the product of the fragments' coefficients on the parts of the determinant if these have the fragments' electron numbers, and zero otherwise.", "quantifier": "every number of fragments, orbitals, electrons (also none) and roots, every coefficient", "why_tests_cant": "Addressing of occupation strings for all sizes and electron numbers, including fragments without electrons of one spin.", "anchors": ["my_pyscf/lassi/op_o0.py:addr_outer_product", "my_pyscf/lassi/op_o0.py:_ci_outer_product"]}
{"id": "C94", "title": "Projections on product states are exact", "statement": "Projecting a CI vector of the whole active space on the product states gives the scalar products with the generated vectors, without generating them; with some fragments left uncontracted it gives the partial scalar products over the other fragments, indexed by the determinants of the uncontracted ones.", "quantifier": "every set of fragments, every CI vector, every set of uncontracted fragments", "why_tests_cant": "Reshapes and transposes of arrays with a variable number of dimensions.", "anchors": ["my_pyscf/lassi/op_o0.py:_ci_outer_product"]}
{"id": "C95", "title": "The overlap matrix of product states is exact and the sector filter drops only zeros", "statement": "The overlap matrix has, for each pair of product states of any rootspaces, their scalar product over all determinants. Leaving out rootspaces that are more electron hops away than the operator can move changes no result.", "quantifier": "every list of rootspaces and product states; every vector obtained with an operator of the given order", "why_tests_cant": "All combinations of rootspaces and electron distributions.", "anchors": ["my_pyscf/lassi/op_o0.py:ci_outer_product_generator", "my_pyscf/lassi/op_o0.py:get_ovlp"]}
{"id": "C96", "title": "The spinless representation is faithful", "statement": "A CI vector in the spinless representation has on each determinant the original coefficient times the sign of reordering the creation operators, and zero in other spin sectors; converting back returns the vector, scalar products are kept and different spin sectors are orthogonal. States with different numbers of electrons are refused.", "quantifier": "every number of orbitals and electrons, every CI vector, all pairs of spin sectors", "why_tests_cant": "All sizes, electron numbers and vectors.", "anchors": ["my_pyscf/lassi/op_o0.py:civec_spinless_repr_generator"]}
{"id": "C97", "title": "The Hamiltonian projected on partially uncontracted product states is complete", "statement": "The reference implementation of the contraction of the Hamiltonian with product states adds the constant term once, accepts every bra with the ket's number of electrons, returns blocks of the documented shape for every rootspace, and its memory check accounts for the vectors it stores.", "quantifier": "every Hamiltonian, constant, bra and ket rootspaces, with and without spin-orbit coupling", "why_tests_cant": "All combinations of spin sectors of bra and ket.", "anchors": ["my_pyscf/lassi/op_o0.py:contract_ham_ci", "my_pyscf/lassi/op_o0.py:memcheck", "my_pyscf/lassi/op_o0.py:ci_outer_product_generator"]}
{"id": "C98", "title": "The factorized algorithm gives the transition density matrices of every pair of product states", "statement": "For every pair of LAS product states, the sum over the excitation tables of the factorized (op_o1) contributions built from fragment-local matrix elements is the transition one- and two-body density matrix of the two many-electron wave functions, for all spin blocks and all orbitals, including all fermion signs.", "quantifier": "every number and size of fragments, every set of fragment CI vectors with definite numbers of electrons (arbitrary coefficients), every pair of states, all spins and orbital indices", "why_tests_cant": "Tests compare with the reference implementation on a few small molecules; the signs depend on every distribution of electrons over fragments, and the rows that contribute are chosen by a case analysis of all electron redistributions.", "anchors": ["my_pyscf/lassi/op_o1/stdm.py:LSTDM._crunch_1d_", "my_pyscf/lassi/op_o1/stdm.py:LSTDM._crunch_2d_", "my_pyscf/lassi/op_o1/stdm.py:LSTDM._crunch_1c_", "my_pyscf/lassi/op_o1/stdm.py:LSTDM._crunch_1c1d_", "my_pyscf/lassi/op_o1/stdm.py:LSTDM._crunch_1s_", "my_pyscf/lassi/op_o1/stdm.py:LSTDM._crunch_1s1c_", "my_pyscf/lassi/op_o1/stdm.py:LSTDM._crunch_2c_", "my_pyscf/lassi/op_o1/stdm.py:LSTDM.get_ovlp_fac", "my_pyscf/lassi/op_o1/stdm.py:LSTDM.make_exc_tables", "my_pyscf/lassi/op_o1/frag.py:FragTDMInt"]}
{"id": "C99", "title": "All transition density matrices of all rootspaces by the factorized algorithm", "statement": "The factorized (op_o1) calculation over all rootspaces at once, which treats each distinct interaction of involved fragments once, copies it to all equivalent pairs of rootspaces with the factors of the spectator fragments, halves the diagonal and adds the transpose, ends without exception, and its result at the row and column of any two model states is the transition one- and two-body density matrix of these two many-electron states.", "quantifier": "every number and size of fragments, every list of rootspaces with any numbers of local roots, every identification of equal fragment vectors in different rootspaces, all fragment CI vectors with definite numbers of electrons, every pair of model states, all spins and orbital indices", "why_tests_cant": "Which interactions are identified, transposed or halved depends on the whole list of rootspaces and on which fragments have equal vectors in which rootspaces; an error shows only for particular combinations of equal vectors, local roots and electron numbers.", "anchors": ["my_pyscf/lassi/op_o1/stdm.py:LSTDM.kernel", "my_pyscf/lassi/op_o1/stdm.py:LSTDM._crunch_env_", "my_pyscf/lassi/op_o1/stdm.py:LSTDM._loop_lroots_", "my_pyscf/lassi/op_o1/stdm.py:LSTDM._get_addr_range", "my_pyscf/lassi/op_o1/stdm.py:LSTDM._get_spec_addr_ovlp_1space", "my_pyscf/lassi/op_o1/stdm.py:LSTDM.find_unique_exc", "my_pyscf/lassi/op_o1/stdm.py:LSTDM.interaction_fprints", "my_pyscf/lassi/op_o1/stdm.py:LSTDM._add_transpose_"]}
{"id": "C100", "title": "Hamiltonian and spin-squared matrices of all model states by the factorized algorithm", "statement": "The factorized (op_o1) calculation of the Hamiltonian and spin-squared matrices of all rootspaces at once, which contracts fragment-local matrix elements with the integrals without forming transition density matrices, ends without exception, and its results at the row and column of any two model states are the matrix elements of the electronic Hamiltonian and of the square of the total spin between these two many-electron states.", "quantifier": "every number and size of fragments, all one- and two-electron integrals with the symmetry of real orbitals, every list of rootspaces with any numbers of local roots, every identification of equal fragment vectors, all fragment CI vectors with definite numbers of electrons, every pair of model states", "why_tests_cant": "Each of the seven kinds of interaction is contracted by its own hand-written formula, with special cases for coinciding fragments and spins; tests compare a few molecules and cannot cover all integrals, distributions of electrons, local roots and equivalences of rootspaces.", "anchors": ["my_pyscf/lassi/op_o1/hams2ovlp.py:HamS2Ovlp.kernel", "my_pyscf/lassi/op_o1/hams2ovlp.py:HamS2Ovlp._crunch_1d_", "my_pyscf/lassi/op_o1/hams2ovlp.py:HamS2Ovlp._crunch_2d_", "my_pyscf/lassi/op_o1/hams2ovlp.py:HamS2Ovlp._crunch_1c_", "my_pyscf/lassi/op_o1/hams2ovlp.py:HamS2Ovlp._crunch_1c1d_", "my_pyscf/lassi/op_o1/hams2ovlp.py:HamS2Ovlp._crunch_1s_", "my_pyscf/lassi/op_o1/hams2ovlp.py:HamS2Ovlp._crunch_1s1c_", "my_pyscf/lassi/op_o1/hams2ovlp.py:HamS2Ovlp._crunch_2c_", "my_pyscf/lassi/op_o1/hams2ovlp.py:HamS2Ovlp._put_ham_s2_", "my_pyscf/lassi/op_o1/hams2ovlp.py:HamS2Ovlp.canonical_operator_order"]}
{"id": "C101", "title": "Overlap matrix of the model states by the factorized algorithm", "statement": "The factorized (op_o1) overlap matrix, of all rootspaces or of a selection of different rootspaces in any order, ends without exception, and its element at the row and column of any two model states is the overlap of these two many-electron states; it is zero when the numbers of electrons in some fragment differ, and rotations that relate linearly equivalent fragment vectors are taken into account.", "quantifier": "every number and size of fragments, every list of rootspaces with any numbers of local roots, every identification of equal fragment vectors and every rotation, all fragment CI vectors with definite numbers of electrons, every selection and order of rootspaces, every pair of model states", "why_tests_cant": "The blocks that are computed, skipped as null or completed by the transpose, and their offsets, depend on the whole list of rootspaces and on the selection; tests use a few molecules with all rootspaces in order.", "anchors": ["my_pyscf/lassi/op_o1/stdm.py:LSTDM.get_ovlp", "my_pyscf/lassi/op_o1/stdm.py:LSTDM.crunch_ovlp", "my_pyscf/lassi/op_o1/stdm.py:LSTDM._umat_linequiv_loop_"]}
{"id": "C102", "title": "Rotating the results for linearly equivalent rootspaces", "statement": "When only one of several rootspaces with linearly equivalent fragment vectors is computed, the final loop that multiplies the rows and columns of the result by the rotation matrices ends without exception and gives, for every model state, what the calculation would have given for the caller's own vectors, for every quantity that is linear in bra and ket.", "quantifier": "every number of fragments and rootspaces, all numbers of local roots, every set of rotated rootspaces per fragment and every matrix, every array with two axes of model states and any further axes, every bilinear quantity", "why_tests_cant": "Rows of one rootspace are strided across several fragments, and several fragments of the same rootspace may be rotated one after the other; a wrong axis, stride or transposition only shows for non-symmetric matrices and more than one local root in several fragments.", "anchors": ["my_pyscf/lassi/op_o1/stdm.py:LSTDM._umat_linequiv_loop_", "my_pyscf/lassi/op_o1/stdm.py:LSTDM._umat_linequiv_", "my_pyscf/lassi/op_o1/hams2ovlp.py:HamS2Ovlp._umat_linequiv_", "my_pyscf/lassi/citools.py:umat_dot_1frag_"]}
{"id": "C103", "title": "Density matrices of linear combinations of product states without pairwise density matrices", "statement": "Given the fragment CI vectors of all rootspaces and two arrays of coefficients (one row per product state, one column per requested state), the routine for transition density matrices of linear combinations returns, for every column, exactly the spin-separated one- and two-body transition density matrices <bra|q+ p|ket> and <bra|p+ r+ s q|ket> of the two linear combinations of products of the caller's fragment vectors - although it never forms the density matrices of pairs of product states, stores tables only for one representative of linearly equivalent fragment vectors, transforms the coefficients instead of the vectors, visits only one triangle of the pairs of rootspaces and obtains the other from exchanging bra and ket or from symmetry. With one array of coefficients the result is the density matrices of each state.", "quantifier": "every number of rootspaces, of local roots per fragment and of columns; every assignment of electrons; every matrix relating equivalent fragment vectors; every coefficient; every spin and orbital index; at most eight fragments", "why_tests_cant": "Tests compare the two algorithms for a handful of small systems; a wrong factor for a diagonal block, a transposed axis of a transformed coefficient array or a wrong order of spectator fragments shows only for particular combinations of rootspaces, local roots and rotations.", "anchors": ["my_pyscf/lassi/op_o1/rdm.py: LRRDM.__init__, kernel, get_single_rootspace_sivec, get_frag_transposed_sivec, get_fdm_1space, get_fdm, _crunch_env_, _add_transpose_, _umat_linequiv_, roots_trans_rdm12s, roots_make_rdm12s"]}
{"id": "C104", "title": "Transition density matrices between different electron numbers are exact", "statement": "For CI vectors of one fragment whose electron numbers differ by one electron, by a spin flip or by a pair of electrons, the library functions return the matrix elements of the products of creation and annihilation operators that they document, with the phase convention of the determinants: trans_rdm1ha/hb_cre give <bra|r'|ket>, trans_rdm1ha/hb_des give <bra|r|ket>, trans_rdm13h*_cre give in addition <bra|r'p'q|ket> for both spins of the full electron, trans_rdm13h*_des give <bra|p'qr|ket>, trans_sfudm1 and trans_sfddm1 give <bra|p'_a q_b|ket> and <bra|p'_b q_a|ket>, trans_ppdm gives <bra|p'q'|ket> and trans_hhdm gives <bra|p_t q_s|ket>. The assertion on the linkstr arrays accepts the arrays the documentation asks for.", "quantifier": "every number of orbitals, all electron numbers of bra and ket, both spins and all spin pairs, all real CI vectors, all orbital indices, with and without a given link_index", "why_tests_cant": "The functions work by padding with occupied dummy orbitals, and the sign of every entry depends on the numbers of electrons of both spins and on the exchange and transposition of bra and ket; tests compare a few sizes against explicit operator application.", "anchors": ["my_pyscf/fci/rdm.py: _trans_rdm1hs, _trans_rdm13hs_o0, _trans_sfudm1_o0, trans_sfddm1, _trans_ppdm_o0, trans_hhdm, _unpack", "my_pyscf/fci/dummy.py: add_orbital"]}
{"id": "C105", "title": "Fragment matrix-element tables hold the matrix elements of the current vectors", "statement": "Building the tables of one fragment never fails on its internal antisymmetry and ordering assertions, and leaves in them, for every pair of unique rootspaces and every pair of their local roots, the exact overlaps, one- and two-electron annihilation, three-operator, spin-flip and density matrix elements, for every kind of operator that connects their electron numbers. Replacing the CI vectors of some unique rootspaces recomputes only the entries of those rootspaces, yet after any sequence of replacements every entry is the one of the current vectors. A lookup by model state returns the entry of the rootspace that represents the state's rootspace, so that objects made of such tables satisfy what the factorized algorithms for density matrices, Hamiltonians and overlaps assume.", "quantifier": "all numbers of orbitals, rootspaces, electron numbers, local roots, CI vectors, choices of unique representatives, and all sequences of updates", "why_tests_cant": "tests compare final matrices for a few molecules and rootspaces; a pair of rootspaces that is skipped or left stale after an update shows up only for particular combinations of electron numbers and histories", "anchors": ["my_pyscf/lassi/op_o1/frag.py: FragTDMInt._init_crunch_, _make_dms_, update_ci_, unmasked_int, set_h, set_phh, set_hh, set_sm, set_dm1, set_dm2, try_get_1, get_1_dm1, get_1_dm2"]}
{"id": "C106", "title": "Transition density matrices of spin-rotated CI vectors give back those of the original vectors", "statement": "Given a bra and a ket CI vector with definite spins, the library may rotate both to the highest common spin projection, compute a transition density matrix there, and transform it back with closed-form factors that depend only on the two multiplicities and the projection of the ket. The rotated vectors have the spins and electron numbers of the given ones, one of them is at its highest projection, and the electron numbers that are returned are theirs. For all six kinds of operators (one annihilator, one creator with two annihilators, two annihilators with equal or opposite spins, a spin flip, one-body and two-body density matrices) the transformed matrix is the matrix of the given vectors, in all spin components and orbital indices, including those combinations of multiplicities for which it must vanish. If a multiplicity is not given, the vectors are returned as they are.", "quantifier": "all numbers of orbitals and electrons, all spin multiplicities and projections of the bra and the ket, all spin-pure CI vectors, all spin components and orbitals", "why_tests_cant": "tests draw random vectors for a few small numbers of orbitals and electrons; the formulas are rational functions and square roots of the spin quantum numbers, generated by a computer-algebra script, with separate branches at the ends of the multiplets", "anchors": ["my_pyscf/fci/rdm_smult.py: _get_highm_civecs, get_highm_civecs_h, get_highm_civecs_hh, get_highm_civecs_sm, get_highm_civecs_dm, scale_h, scale_hh, scale_sm, scale_dm, mdown_h, mdown_phh, mdown_hh, mdown_sm, mdown_dm1, mdown_dm2", "my_pyscf/fci/spin_op.py: mup, mdown"]}
{"id": "C107", "title": "Fragment matrix-element tables shared between the members of spin multiplets", "statement": "When spin multiplicities are given, rootspaces of a fragment that are found to be states of the same multiplets with different spin projections share table entries: an entry is computed once for every two multiplets and every difference of projections, from vectors rotated to high projections, and is rotated back when it is looked up. Rootspaces are put together only if they are states of the same multiplets. Building the tables never fails on its internal assertions, and every lookup by model states (overlaps, annihilation, three-operator, pair, spin-flip and density matrix elements) returns the exact matrix element of the vectors of the states that were asked for. After any sequence of replacements of CI vectors lookups are exact for the current vectors.", "quantifier": "all numbers of orbitals, rootspaces, electron numbers, multiplicities (also given for some rootspaces only), local roots, spin-pure CI vectors, choices of unique representatives, and all sequences of updates", "why_tests_cant": "tests compare final matrices for a few molecules; an entry of the wrong member of a multiplet, a missing phase or a stale entry shows up only for particular combinations of multiplicities, projections and histories", "anchors": ["my_pyscf/lassi/op_o1/frag.py: FragTDMInt._init_crunch_, _make_dms_, update_ci_, try_get_1, try_get_dm, try_get_tdm, get_1_h, get_1_phh, get_1_hh, get_1_sm, get_1_dm1, get_1_dm2", "my_pyscf/lassi/citools.py: _get_unique_roots_with_spin"]}
{"id": "C108", "title": "No coupling is lost when pairs of rootspaces are screened by local spin multiplicities", "statement": "When the spin multiplicities of the fragments are given, the builders of transition density matrices, overlaps and Hamiltonians skip every pair of rootspaces for which the multiplicities of the fragments differ by more than a two-body operator can change. If the CI vectors of the fragments do have the given numbers of electrons and multiplicities, the screening never aborts, and every skipped pair has zero overlap and zero one- and two-body transition density matrices for all its model states; so the results are the same as without screening, and the overlap matrix is exact.", "quantifier": "all numbers of fragments, orbitals, rootspaces, electrons, multiplicities, spin projections, local roots and all spin-pure CI vectors", "why_tests_cant": "a wrong budget shows up only for rootspaces in which several fragments change their spins at once, possibly together with electron transfers; the number of combinations is unbounded", "anchors": ["my_pyscf/lassi/op_o1/stdm.py: LSTDM.__init__, LSTDM.make_exc_tables", "my_pyscf/lassi/op_o1/utilities.py: get_scallowed_interactions", "lib/lassi/slatercondon.c: SCcntinterspin, SClistinterspin"]}
{"id": "C109", "title": "Hamiltonian and spin-squared matrices computed once per spin manifold equal those of all model states", "statement": "When the spin multiplicities of the fragments are given, the builder of the Hamiltonian and spin-squared matrices groups the interactions that differ only in the spin projections of the fragments, evaluates the operator of one interaction of each group for the highest projections, and scales it to all other members. The elements of the result between any two model states, with any numbers of fragments, rootspaces and local roots, are the matrix elements of the Hamiltonian (with the given one- and two-electron integrals, the former optionally different for the two spins) and of the spin-squared operator between the products of the fragment vectors, also after the fragment vectors were replaced.", "quantifier": "all fragments, rootspaces, electrons, multiplicities, projections and local roots, all spin-pure CI vectors, all groupings into manifolds, all integrals with the symmetries of real orbitals", "why_tests_cant": "the scale factors are ratios of vector-coupling coefficients that depend on the kind of interaction, the spins and the projections of up to four fragments at once; tests reach a few small spins and a few kinds of interactions, and use integrals that are the same for both spins", "anchors": ["my_pyscf/lassi/op_o1/hams2ovlp.py: HamS2Ovlp.kernel, HamS2Ovlp.interaction_spman_fprint, HamS2Ovlp.split_exc_table_by_spman_, HamS2Ovlp._put_ham_s2_, HamS2Ovlp._crunch_1d_ .. _crunch_2c_", "my_pyscf/lassi/op_o1/opterm.py: OpTerm, reduce_spin", "my_pyscf/lassi/op_o1/frag.py: FragTDMInt.spin_factor_constant, FragTDMInt.spin_factor_component, FragTDMInt.get_dm1 etc. with highm"]}
{"id": "C110", "title": "Products of H, S^2 and the overlap with a vector, without the matrices, are exact", "statement": "The linear operators that the state-interaction solver gets in place of matrices (Hamiltonian, spin-squared, overlap over all products of fragment roots of all rootspaces) return, for any trial vector, the product of that vector with the matrices that the matrix algorithm of the same module computes, and the elements of those matrices are <bra|H|ket>, <bra|S^2|ket> and <bra|ket> of the products of fragment vectors, also when some rootspaces are stored as rotations of others. No call fails.", "quantifier": "all numbers of rootspaces, up to eight fragments, all numbers of electrons and local roots, all real CI vectors and symmetric integrals, all trial vectors, all rotations", "why_tests_cant": "The operator is assembled from cached operators of groups of rows, applied to vectors shared between rootspaces that agree on a part of the fragments, and transposed back; which intermediates are shared depends on the whole table of rootspaces. Tests compare a few small systems.", "anchors": ["my_pyscf/lassi/op_o1/hsi.py: HamS2OvlpOperators._ham_op, _s2_op, _ovlp_op, _opuniq_x_group_, _opuniq_x_full, _opuniq_x_, get_xvec, ox_ovlp_uniq_str, ox_ovlp_frag, _umat_linequiv_", "my_pyscf/lassi/op_o1/opterm.py: OpTermGroup, OpTermContracted, OpTerm4Fragments", "my_pyscf/lassi/op_o1/stdm.py: LSTDM._umat_linequiv_loop_", "my_pyscf/lassi/citools.py: umat_dot_1frag_"]}
{"id": "C111", "title": "The LASSIS model space consists of all combinations of the available charge hops and spin flips, each with the right CI vectors", "statement": "Given the reference, and the sets of fragment CI vectors optimized for charge hops between pairs of fragments (four choices of multiplicities each) and for spin flips of single fragments, the preparation of the LASSIS model states finishes without an exception. The rootspaces returned start with the reference, contain no duplicate, and are exactly those obtained from the reference by combining available hops and flips that act on different fragments, in every distribution of local projections that adds up to the projection of the reference, and whose local spins can couple to a total spin of the reference. In each rootspace each fragment carries the vectors that were optimized for this fragment and this excitation, rotated to its local projection.", "quantifier": "all numbers of fragments, orbitals and electrons, all references with possible quantum numbers, all sets of available hops and flips", "why_tests_cant": "The number of combinations grows exponentially with the number of fragments; tests use a few fragments, low spins and all hops available, and check energies, which hide missing or duplicated rootspaces.", "anchors": ["my_pyscf/lassi/lassis/lassis.py: prepare_model_states, SpinFlips, charge_excitation_products, spin_flip_products, _spin_flip_products, _spin_shuffle_ci_", "my_pyscf/lassi/spaces.py: SingleLASRootspace.get_single_any_m, single_fragment_spin_change, get_ci_szrot, has_ci, combine_orthogonal_excitations, _spin_shuffle"]}
{"id": "C112", "title": "LASSIS finds exactly the rootspaces that use a given set of fragment vectors", "statement": "For a fragment and the reference, a spin flip, or a charge hop (source, destination and multiplicities), the LASSIS object returns the indices of exactly those rootspaces of its model space in which the fragments concerned carry the vectors of that set, with the electron numbers to which these vectors are rotated there.", "quantifier": "all model spaces, all fragments, flips and hops", "why_tests_cant": "The rootspaces are recognised by quantum numbers and by a record of hops whose spelling depends on the traversal order of a set; coincidences of quantum numbers between different excitations appear only for particular combinations of many fragments.", "anchors": ["my_pyscf/lassi/lassis/lassis.py: LASSIS.get_ref_fbf_rootspaces, get_sf_fbf_rootspaces, get_ch_fbf_rootspaces"]}
{"id": "C113", "title": "Density matrices of the sites of a LASSI state are exact partial traces", "statement": "The weights of the rootspaces in a LASSI vector add up to its squared norm. For every rootspace, fragment and state, the one-site density matrix is the partial trace, over the local states of all other fragments, of the part of the vector in that rootspace; the two-site density matrix likewise for two fragments, in the documented order of axes. Between two rootspaces the transition density matrix of a site is the matrix element of the transfer operator of two local states, with the local states of the other sites overlapping as given. The functions leave their arguments unchanged.", "quantifier": "all numbers of fragments, numbers of local states (different on every fragment and rootspace), numbers of roots, coefficients (real or complex), sites", "why_tests_cant": "The tensors are reshaped in Fortran order and contracted axis by axis for any number of fragments; tests use two fragments with equal numbers of states, where a wrong order of axes or an overwritten argument does not show.", "anchors": ["my_pyscf/lassi/sitools.py: decompose_sivec_by_rootspace, _make_sdm1, make_sdm1, _make_sdm2, _trans_sdm1"]}
{"id": "C114", "title": "LASSIS: basis of fragment wave functions, its overlap and its density matrix", "statement": "The fragment wave functions LASSIS uses for a fragment (reference, spin flips, source and destination of charge hops) are numbered one set after the other, each function belonging to exactly one set. The overlap matrix of this basis contains the scalar product of two functions whenever both have the same electron number and multiplicity, and zero otherwise. The density matrix of the fragment in this basis contains, for any two functions, the sum over all pairs of rootspaces of equal local quantum numbers that use the two of the elements of their transition density matrix.", "quantifier": "all numbers of fragments, all sets of available hops and flips, all numbers of vectors in each set, all scalar products and LASSI vectors", "why_tests_cant": "Index ranges depend on which sets are present and how large they are; blocks are selected by quantum numbers which coincide only for particular combinations of hops on four or more fragments, whereas tests use two or three.", "anchors": ["my_pyscf/lassi/lassis/lassis.py: LASSIS.get_fbf_idx, get_fbf_ovlp, make_fbfdm1, get_ref_fbf_rootspaces, get_sf_fbf_rootspaces, get_ch_fbf_rootspaces"]}
{"id": "C115", "title": "Operators that change the number of electrons act exactly on CI vectors", "statement": "For any numbers of orbitals and electrons, any CI vector and any matrix elements, the routines that apply an operator to a CI vector of a fragment return the vector in the space of the new numbers of electrons, with the fermionic signs of the package's determinants: contract_1he gives sum h[r] r' (or h[r] r), absorb_h1he followed by contract_3he gives sum h1[r] r' + sum h3[p,q,r] p' q' r (or h1[r] r + h3[p,q,r] p' q r), contract_pair_op gives sum op[p,q] p' q' (or op[p,q] p q) for the spins aa, ab, bb, and the fragment methods contract_h00, contract_h10, contract_h01, contract_h20 and contract_h02 give the constant and Hamiltonian, the one-electron and the pair operators. The keyword fac of absorb_h1he multiplies the three-half-electron part only, as documented.", "quantifier": "all numbers of orbitals and of electrons of both spins, CI vectors, matrix elements, spins, creation or annihilation, and factors", "why_tests_cant": "The tests compare random vectors in at most four orbitals and symmetrize the matrix elements first with fac=0.5; signs depend on the parities of both electron numbers and on the position of up to two dummy orbitals, so agreement on samples says nothing about other sizes, about arrays that are not symmetric or about other factors.", "anchors": ["my_pyscf/fci/direct_halfelectron.py: contract_1he, absorb_h1he, contract_3he", "my_pyscf/fci/pair_op.py: contract_pair_op", "my_pyscf/fci/dummy.py: add_orbital, read_orbital", "my_pyscf/lassi/op_o1/frag.py: FragTDMInt.contract_h00, contract_h10, contract_h01, contract_h20, contract_h02"]}
{"id": "C116", "title": "Contraction of complex CI vectors is exact for every block size and thread schedule", "statement": "contract_2e of the complex FCI solvers (direct_spin1_cplx, direct_spin1_cplx_opt, direct_spin0_cplx) returns sum_pqrs eri[p,q,r,s] E_pq E_rs applied to the vector, for complex integrals and vectors, whatever the order of entries in the link tables, the block size of spin-down strings, the number of OpenMP threads and the order in which they execute rows and write back their buffers; with absorb_h1e(fac=0.5) it applies the Hamiltonian, and energy is its expectation value. The spin0 variant is exact for vectors symmetric in the two spins and refuses unequal electron numbers.", "quantifier": "all numbers of orbitals and electrons, complex integrals and coefficients, link tables, block sizes, thread counts and schedules", "why_tests_cant": "Tests run a few small cases with the block sizes and the schedules that happen to occur; races and block-boundary errors depend on the schedule and on sizes above 1000 strings.", "anchors": ["lib/pbclas/pbc_fci_contract_opt.c: FCIcontract_2es1_zgemm_blksize, FCIcontract_2es1_zgemm_spin0_blksize", "my_pyscf/pbc/fci/direct_spin1_cplx.py: contract_1e, contract_2e, absorb_h1e, energy", "my_pyscf/pbc/fci/direct_spin1_cplx_opt.py: contract_2e", "my_pyscf/pbc/fci/direct_spin0_cplx.py: contract_2e_spin0"]}
{"id": "C117", "title": "Density matrices of complex CI vectors are exact and consistent", "statement": "make_rdm1s, make_rdm1, make_rdm12s and make_rdm12 of the complex FCI solver return dm1[p,q] = <c|q'p|c> and dm2[p,q,r,s] = <c|p'r's q|c> for the spin components and their sums (without reordering, <c|p'q r's|c>), for every complex vector, link table and thread schedule; the energy computed from them is the expectation value of the Hamiltonian; make_rdm1 and make_rdm12 agree; the python versions return the same matrices and leave the vector as it is.", "quantifier": "all numbers of orbitals and electrons, complex coefficients, link tables, thread counts and schedules, complex integrals", "why_tests_cant": "Tests compare a few small normalized vectors; conjugation and transposition errors cancel for real vectors and for spin-symmetric states, and races depend on the schedule.", "anchors": ["lib/pbclas/pbc_fci_rdms.c: FCImake_rdm1a_cplx, FCImake_rdm1b_cplx, FCIrdm12_drv_cplx, FCIrdm12kern_a_cplx, FCIrdm12kern_b_cplx, FCItdm12kern_ab_cplx", "my_pyscf/pbc/fci/rdm_helper.py: reorder_rdm, make_rdm1_spin1, make_rdm12_spin1, make_rdm1s_py, make_rdm12s_py", "my_pyscf/pbc/fci/direct_spin1_cplx.py: make_rdm1s, make_rdm1, make_rdm12s, make_rdm12, make_rdm1_py, make_rdm12_py"]}
{"id": "C118", "title": "Active-space Hamiltonian and density matrices of k-point calculations", "statement": "For a periodic calculation with any number of k-points, the one-electron integrals of the active space couple only orbitals of the same k-point and are C^dagger (h + v_core) C there, the core energy is that of all cells' nuclei plus tr D_core (h + v_core/2), the two-electron integrals vanish unless crystal momentum is conserved and are the k-point integrals divided by the number of k-points otherwise, with the permutation and Hermitian symmetry the solver assumes. make_rdm1s and make_rdm1 return core density plus C D C^dagger with the diagonal block D of each k-point, contain all electrons, agree with each other and with the density of get_fock, and give expectation values of one-electron operators.", "quantifier": "all numbers of k-points, of atomic, core and active orbitals, all orthonormal orbitals, unitary phases, integrals and active-space density matrices", "why_tests_cant": "Tests compare a few meshes and molecules numerically; index order, phases and conjugations must be right for every mesh and basis.", "anchors": ["my_pyscf/pbc/mcscf/k2R.py: get_mo_coeff_k2R", "my_pyscf/pbc/mcscf/casci.py: h1e_for_cas, get_fock, PBCCASBASE.make_rdm1s, PBCCASBASE.make_rdm1, PBCCASCI.get_h2eff"]}
{"id": "C119", "title": "Canonical orbitals of k-point calculations", "statement": "Canonicalization changes only orbitals that are neither active nor frozen, keeps them orthonormal, makes the Fock matrix diagonal among core and among virtual orbitals with the returned energies on its diagonal, and changes neither the core density nor the active-space Hamiltonian; and it does not change the orbitals of the caller or of the mean-field calculation.", "quantifier": "all numbers of k-points and orbitals, frozen sets, Hermitian Fock matrices, eigensolvers that return eigenvectors, sorting orders, and both forms of the orbitals (list of arrays, one array)", "why_tests_cant": "Tests look at energies of one calculation; whether another calculation that shares the mean-field object sees changed orbitals depends on the history, and the block structure must hold for every frozen set.", "anchors": ["my_pyscf/pbc/mcscf/casci.py: canonicalize, PBCCASBASE.canonicalize_"]}
{"id": "C120", "title": "Spin, checks and starting vectors of the solver for complex CI vectors", "statement": "contract_ss and spin_square of complex CI vectors are the action and the expectation value of the spin-squared operator, without a dropped imaginary part, and a spin eigenstate gets its multiplicity; a matrix is diagonalized only if it is Hermitian, and then that matrix is; the preconditioner divides by the shifted diagonal and is bounded; the singlet solver's initial guess is symmetric, for any number of roots.", "quantifier": "all complex vectors, all matrices, diagonals, shifts and numbers of roots", "why_tests_cant": "Tests pass Hermitian matrices and real or accidental phases; acceptance of matrices that are not Hermitian and failure for several roots occur only for inputs that no test uses.", "anchors": ["my_pyscf/pbc/fci/spin_op.py: contract_ss0, spin_square0", "my_pyscf/pbc/fci/direct_spin1_cplx.py: FCISolver.eig, _make_diag_precond", "my_pyscf/pbc/fci/direct_spin0_cplx.py: FCISolver.get_init_guess"]}
{"id": "C121", "title": "Energies, effective Hamiltonians and density matrices of LAS states", "statement": "energy_elec and each element of states_energy_elec are the expectation value of the molecular Hamiltonian (core electrons included) for the density matrices that the same object returns, and the total energy is the weighted sum of the state energies; the effective Hamiltonian that each fragment's CI solver gets (h1e_for_las and get_h2eff_slice) gives, for every wave function of that fragment, the energy of the whole state up to a constant; make_rdm1s is the weighted sum of states_make_rdm1s; get_veff without arguments is the potential of the density matrix that make_rdm1 returns.", "quantifier": "all orbital coefficients, integrals with permutational symmetry, numbers and sizes of fragments, numbers of core orbitals, states, weights and fragment density matrices", "why_tests_cant": "Tests compare the energies of a few molecules with reference numbers. The agreement of the cumulant-based energy, the state-by-state energy and the effective Hamiltonians must hold for all densities, weights and fragment sizes; get_veff is never called without a density matrix in the tests.", "anchors": ["my_pyscf/mcscf/lasci.py: h1e_for_las, LASCINoSymm.get_mo_slice, make_casdm1s_sub, states_make_rdm1s, make_rdm1s_sub, make_rdm1s, make_rdm1, get_veff, states_energy_elec, energy_elec", "my_pyscf/mcscf/las_ao2mo.py: get_h2eff_slice"]}
{"id": "C122", "title": "Density-fitted integrals and potentials", "statement": "For density-fitted calculations, get_h2eff returns the integrals (pu|vw) over the orbitals in the packed form that the rest of LASSCF reads, and the half-contracted vectors attached to it, whatever the division of the auxiliary functions into blocks, the number of threads and the schedule of the parallel contraction; the contraction itself leaves out exactly the pairs whose vectors have a norm of at most the threshold and is therefore wrong by at most the threshold times the sum of the absolute values of a column of the matrix; the number of orbitals is inferred correctly from the packed shape; the potential of the active electrons computed from the stored vectors is the one which get_veff computes from their density matrix.", "quantifier": "all numbers of orbitals, auxiliary functions, columns and threads, all vectors, orbital coefficients and density matrices, all block divisions, orders of the orbitals and schedules", "why_tests_cant": "Tests run a few small molecules on one machine, with one block and one thread count, in double precision and with pairs that are either large or vanish; positions beyond 32 bits occur only for arrays of more than 32 GB.", "anchors": ["my_pyscf/df/sparse_df.py: sparsedf_array, get_sparsity_, contract1", "lib/sparsedf.c: SINT_SDCDERI_DDMAT", "my_pyscf/mcscf/las_ao2mo.py: get_h2eff_df", "my_pyscf/mcscf/lasscf_sync_o0.py: fast_veffa"]}
{"id": "C123", "title": "Initial CI vectors from stored and generated ones", "statement": "When a LASSCF calculation sets up its initial CI vectors, vectors which are already stored for a fragment are kept and come first; if there are fewer of them than roots, generated vectors which are orthogonal to them are appended up to the number of roots; stored arrays of another dimension are ignored; without stored vectors the generated ones are used.", "quantifier": "all numbers of determinants, roots and stored vectors, all vectors, all factorizations which the QR routine may return", "why_tests_cant": "Tests start from no vectors or from as many as there are roots; the case between depends on the relation of the number of roots to the number of determinant strings, and the loss of orthogonality depends on the vectors.", "anchors": ["my_pyscf/mcscf/lasci.py: _combine_init_guess_ci, get_init_guess_ci"]}
{"id": "C124", "title": "Canonical orbitals of LASSCF wave functions", "statement": "las.canonicalize returns the given orbitals rotated by an orthogonal matrix that never mixes inactive, active and virtual orbitals, nor active orbitals of different fragments unless the density matrix connects fragments; in the returned orbitals the Fock matrix is diagonal among the inactive and among the virtual orbitals, with the returned energies in ascending order, and the density matrix is diagonal in each fragment, with the returned occupations in descending order (2 for inactive and 0 for virtual orbitals); the CI vectors are rotated like the orbitals of their fragment, or None if fragments are mixed; density matrices which are rotated along are unchanged over atomic orbitals; and the returned integrals are those over the returned orbitals.", "quantifier": "all numbers and sizes of fragments, orbitals, symmetric Fock and density matrices (also with degenerate eigenvalues), integrals, all eigensolvers and all orders in which argsort may return equal elements", "why_tests_cant": "Tests check a few molecules by the energy, which does not change under any rotation within the spaces; which eigenvectors and which order a solver returns for degenerate eigenvalues varies between machines.", "anchors": ["my_pyscf/mcscf/lasci.py: canonicalize, _eig_inactive_virtual"]}
{"id": "C125", "title": "Division of a reference determinant among fragments", "statement": "When localize_init_guess is given the occupations of a reference determinant (mo_occ) and the electrons and spin multiplicities of the fragments add up to it, every fragment receives exactly as many singly occupied orbitals as its multiplicity demands and as many doubly occupied ones as its number of electrons demands, whatever the overlaps between orbitals and fragments are.", "quantifier": "all numbers and sizes of fragments, numbers of electrons and spin multiplicities that add up, all overlaps (singular values between 0 and 1), all orders in which argsort may return equal elements", "why_tests_cant": "The tests use two equal fragments, for which what the others need happens to be what a fragment may have; which orbitals a fragment receives otherwise depends on the molecule.", "anchors": ["my_pyscf/mcscf/lasscf_guess.py: _get_minmax_occs, _localize, localize_init_guess", "my_pyscf/mcscf/lasci.py: _shift_svals, LASCINoSymm._svd"]}
{"id": "C126", "title": "Table of genealogical couplings", "statement": "gencoup_table returns exactly the genealogical couplings of the given local multiplicities to the given total multiplicity: all sequences of intermediate spins that begin with the spin of the first subunit, end with the total spin and obey the triangle rule at each step.", "quantifier": "all numbers of subunits, all local multiplicities and all total multiplicities", "why_tests_cant": "There is no test: the main block of the module prints one example. Which paths are lost or added depends on the multiplicities and on the number of subunits.", "anchors": ["my_pyscf/lassi/s2.py: gencoup_table"]}
{"id": "C127", "title": "Products of Clebsch-Gordan coefficients", "statement": "cg_prod_vec returns, for every genealogical coupling of spins and every total projection, each string of projections of the individual spins that adds up to the total projection exactly once, together with the product of the Clebsch-Gordan coefficients of the successive couplings; cg_prod returns the same coefficient for each of these strings. Quantum numbers are divided by fac on input and output, and total projections that the spins cannot have are refused.", "quantifier": "all numbers of spins, all magnitudes, all couplings, all total projections, both values of fac", "why_tests_cant": "There is no test: the main block prints the norms for three triplets and one string list for two quintets; whether strings are lost or repeated depends on the limits that are carried from spin to spin.", "anchors": ["my_pyscf/tools/cg.py: cg_prod, cg_prod_vec"]}
{"id": "C128", "title": "Impurity orbital spaces", "statement": "The orbitals that define an impurity in asynchronous LASSCF begin with the fragment's active orbitals, are orthonormal, have no component in the active orbitals of other fragments, are not entangled with the environment by the inactive density matrix, and together with the environment orbitals span the whole inactive, external and fragment's active space; where orbitals are added because of their gradient, those with the largest gradient are added and none is lost.", "quantifier": "all numbers of inactive, active and external orbitals, all orthonormal orbitals, all fragment orbitals, gradients and singular value decompositions, all thresholds that separate zero singular values from others", "why_tests_cant": "Whether orbitals are lost depends on the relative numbers of fragment and environment orbitals; the tests check energies of molecules with few atoms, which converge to the same result when the added orbitals are arbitrary.", "anchors": ["my_pyscf/mcscf/lasscf_async/split.py: LASImpurityOrbitalCallable._get_orthnorm_frag, _a2i_gradorbs, _schmidt, _ia2x_gradorbs"]}
{"id": "C129", "title": "Singular value decomposition when LAPACK's fails", "statement": "If LAPACK fails to converge, the singular value decomposition used throughout still returns a decomposition of the same matrix, with orthogonal matrices of the shapes LAPACK would have returned.", "quantifier": "all numbers of rows and columns, all real matrices that are not zero, all eigenvectors of the two products of the matrix with its transpose, whatever the degeneracies, both values of full_matrices", "why_tests_cant": "The failure is irreproducible, so no test reaches the code; whether vectors of degenerate singular values match is a matter of the eigenvectors LAPACK happens to choose.", "anchors": ["util/la.py: safe_svd_warner (safe_svd, fake_svd)"]}
{"id": "C130", "title": "Spin-orbit coupling integrals", "statement": "The spin-orbit coupling integrals are Hermitian, with and without the atomic mean-field approximation. In the approximation they couple only orbitals of the same atom, and these only through the charge of its nucleus and its own electrons; for a single atom the approximation changes nothing.", "quantifier": "all molecules with any number of atoms and orbitals, all integrals with the symmetries of spin-orbit integrals, all symmetric density matrices, both values of amfi", "why_tests_cant": "The tests compare a few energies computed with the approximation with references and never evaluate the integrals without it.", "anchors": ["my_pyscf/mcscf/soc_int.py: get_jk, get_jk_amfi, compute_hso_amfi, compute_hso"]}
{"id": "C131", "title": "Constant term of the Hamiltonian acting on CI vectors", "statement": "With one fragment, the constant energy contributes to the Hamiltonian acting on the CI vectors the constant times the CI vectors, in the array of each bra space and in the columns of the ket spaces with the same numbers of electrons.", "quantifier": "all numbers of spaces and states, all choices of bra and ket spaces, all CI vectors and constants", "why_tests_cant": "The array that receives the term depends on the number of states in all spaces before the last one; a test with one space cannot see it, and one with several sees only its own numbers.", "anchors": ["my_pyscf/lassi/op_o1/hci/chc.py: ContractHamCI_CHC._hconst_ci_", "my_pyscf/lassi/citools.py: hci_dot_sivecs_ij"]}
