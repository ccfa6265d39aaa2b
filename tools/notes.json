{
 "C02": {
  "note": "False as stated: CPython set iteration order is not ascending for fragment indices >= 8 (C02_frag_shuffle_violated); proved for indices < 8 and for every ascending iteration order."
 },
 "C03": {
  "note": "Same defect as C02 (C03_des_shuffle_violated); proved for indices < 8 and for every ascending iteration order."
 },
 "C16": {
  "note": "The copy list is proved exact. The 'equal lengths' clause fails for an all-False mask: the source-start array has one element more (C16_equal_length_violated); proved when some element is selected."
 },
 "C19": {
  "note": "Proved for all sizes whose int products fit 32 bits. The two-body kernel multiplies npdest*npdest in int, so it overflows from 216 active orbitals (C19_scatter2_overflow_violated)."
 },
 "C20": {
  "note": "Equality means equality of all compared numbers (proved). Hash agreement and set deduplication are proved for rootspaces with the same entmap; violated in general: entmap enters the hash but not the comparison."
 },
 "C27": {
  "note": "Charge/multiplicity windows exact; target lists exact when parity matches (all) or for one target (any); violated in general (parity ignored, and 'any' tests lower and upper bound against different targets)."
 },
 "C29": {
  "note": "The listing and its spin-shuffle filter are proved; the filter compares every excitation with the first reference only, so with references of different electron number it can raise IndexError (C29_filter_violated)."
 },
 "C34": {
  "note": "False as stated: SmultShifter._matvec advances the block offsets only for manifolds present in both bases, so after a manifold that exists in one basis only all later manifolds are misaligned (C34_aligned_violated); proved when no manifold is empty in one basis only."
 },
 "C37": {
  "note": "False as stated at the C level for i = a up to order (C37_restore_violated: the kernel then overwrites one entry twice); proved whenever the two strings are not rearrangements of each other, which FSUCCOperator guarantees (C69)."
 },
 "C66": {
  "note": "The accumulating kernel is proved for every pair of strings; the exponential for strings that are not rearrangements of each other."
 },
 "C67": {
  "note": "The code comment (derivative without projecting spectators) is false (C67_derivative_violated); with the projection, as get_deriv1 does it, it is proved."
 },
 "C69": {
  "note": "Proved for C-contiguous float64 arrays; for other arrays the ctypes call works on a copy and __call__ silently returns the untransformed vector (C69_dtype_violated)."
 },
 "C71": {
  "note": "Proved for transpose=False; with transpose=True and two or more generators the iteration raises RuntimeError (C71_transpose_violated)."
 },
 "C42": {
  "note": "Holds for LASSCF at every crash point (C42_las). Violated for LASSI (the LAS and LASSI records are replaced one after the other: a crash in between loads new LAS with old LASSI data) and for LASSIS (vectors not yet written load as None)."
 },
 "C43": {
  "note": "Holds for None, integers, arrays, lists and dicts. Violated for tuples (never come back as tuples) and booleans (load raises ValueError)."
 },
 "C44": {
  "note": "Violated: load_chk_ can never return True; it reports a mismatch or raises ValueError (iterates over dict keys and unpacks them). What holds: the object is left unchanged."
 },
 "C45": {
  "note": "Gradient, spread and cycle-count conditions are proved exact, and the returned state is that of the stopping cycle. False for the fragment solvers: line 52 tests all([solvers_converged]), the truth value of a non-empty list (C45_violated)."
 },
 "C46": {
  "note": "np.all of a generator is always true, so the flag is set whatever the components report (C46_violated)."
 },
 "C47": {
  "note": "The flag is overwritten by each block that needs a diagonalization (C47_violated), and stays False if no block does (C47_trivial_violated). Proved exact for one non-trivial block, and when all converge."
 },
 "C48": {
  "note": "LASSI.kernel sets sisolver.level_shift_si, nroots_si and privref_si, which the diagonalizer never reads (C48_violated); pspace_size_si and smult_si are proved to arrive."
 },
 "C78": {
  "note": "self.converged = self.converged and self.converged_si is sticky: after one failure no later call reports convergence (C78_sticky_violated)."
 },
 "C53": {
  "note": "The prefactor is 1/ndim!, i.e. 1/2 for one-body and 1/24 for two-body arrays instead of 1 and 1/2 (C53_violated); what is computed is proved (C53_weights_partial)."
 },
 "C54": {
  "note": "Proved in the stronger form: the effective Hamiltonian gives the right energy for every new state of the fragment (C54_projected); the English statement is C54_current. Assumes (pq|rs)=(rs|pq)=(qp|sr) and symmetric one-body densities."
 },
 "C58": {
  "note": "False of the density matrix: combine.py:73 sums kf2.dm1s over a comprehension variable named dm1s, so kf2 is the last keyframe and the 'average' is the last keyframe's density matrix (C58_dm1s_violated). Ownership of orbitals and CI vectors and the averaged potential are proved in full. Numerical steps (Loewdin, SVD, QR, diagonalization) are not modelled."
 },
 "C81": {
  "note": "Completion is proved for every number of fragments and every limit. Every fragment's update survives if the limit is at least the number of fragments (default). With a smaller combine_pair_max_frags the responsibilities of the merged keyframe shrink to the relaxed fragments, so from five fragments on later rounds take other fragments from the reference keyframe and their update is lost (C81_small_limit_violated)."
 },
 "C60": {
  "note": "coords.py sizes both spin components of a charge-hop vector with the first one's transformer, so the round trip and the length fail when the two components have different CSF counts (C60_length_violated, C60_roundtrip_violated); proved when the shapes agree (_partial)."
 },
 "C61": {
  "note": "Proved. For a spin of the wrong parity the request is accepted and silently changed (C61_info_wrong_parity)."
 },
 "C82": {
  "note": "Proved element by element for every fragmentation, for fragment states of definite electron number and spin projection with symmetric one-body density matrices."
 },
 "C83": {
  "note": "aa and bb proved in full. ab is filled as if ab = ba: for fragments f < g the element (gg|ff) receives alpha of f times beta of g, i.e. the transposed element (C83_opposite_spin_violated); all other elements, and all elements for fragments with equal alpha and beta densities, are proved (C83_opposite_spin_partial)."
 },
 "C84": {
  "note": "Two errors of the code: the rootspace weights enter inter-fragment terms twice, so they are squared (C84_weights_violated), and terms 7 and 8 use the ab component of a fragment's two-body density twice instead of ab plus ba (C84_spin_violated). Proved for weights with w^2 = w (one rootspace) and fragments whose ab and ba components agree, for every element."
 },
 "C85": {
  "note": "aaa, bbb and abb proved for one rootspace (weights are squared otherwise, see C84_weights_violated). In aab the exchange of two alpha electrons between fragments f < h around a fragment g between them uses the alpha density of g and the beta density of h (C85_aab_violated); all other elements are proved (C85_aab_partial)."
 },
 "C86": {
  "note": "Proved."
 },
 "C87": {
  "note": "Proved, assuming that CSFTransformer maps between determinants and configuration state functions with the announced lengths and csf -> det -> csf is the identity."
 },
 "C88": {
  "note": "ncsf_sub leaves out the rows of frozen fragments, but addr2idstr indexes its sums with the number of the fragment. With frozen_ci set for a fragment before another one the wrong row is used or an IndexError ends the calculation (the microiteration callback calls it on every iteration), see C88_frozen_violated. Proved when all frozen fragments come last."
 },
 "C89": {
  "note": "Proved when degrees of freedom can be masked (trust radius at least pi, the default) and when the Hessian diagonal is non-negative. With negative elements and nothing to mask, the shift g/x + g/trust can be too small and the assertion fails (C89_trust_violated: default trust radius, gradient (3,4), diagonal (-1, 1/100))."
 },
 "C90": {
  "note": "Of three trial steps the first that lowers the energy is taken (proved). If none does, the last one is taken although it raises the energy (C90_energy_violated)."
 },
 "C91": {
  "note": "Proved for every history. CI solvers, gradients and steps are parameters. The second criterion (internal gradient below a tenth of the external one) can end LASPSCF with larger gradients; it is part of the statement."
 },
 "C92": {
  "note": "Proved over the reals."
 },
 "C93": {
  "note": "Proved. cistring.sub_addrs and NumPy's outer, transpose, reshape and intersect1d are modelled as documented."
 },
 "C94": {
  "note": "Proved, with and without uncontracted fragments, for the ket's electron numbers; for other electron numbers see C97."
 },
 "C95": {
  "note": "Proved; coefficients are not complex-conjugated, so for complex vectors it is the bilinear product that the code computes."
 },
 "C96": {
  "note": "Proved."
 },
 "C97": {
  "note": "With spin-orbit coupling the constant is added twice (C97_constant_violated); spin sectors that only the bra has are a KeyError, because the bra's tables are built from the ket (C97_bra_sectors_violated); rootspaces of other spin sectors give a one-dimensional block of zeros (C97_block_shape_violated); the memory check uses the size of spin-free vectors also with spin-orbit coupling (C97_memory_violated). The rest is proved."
 },
 "C98": {
  "note": "Proved for up to eight fragments, for arbitrary fragment vectors with definite electron numbers (C98_pair_exact_partial). With nine fragments the list made from a set of fragment numbers is not ascending and the sign of a hop can be wrong (C98_nine_fragments_violated)."
 },
 "C99": {
  "note": "Proved for up to eight fragments, arbitrary rootspaces, local roots, identifications of equal fragment vectors and rotations of linearly equivalent ones (umat_root), under the assumption that no two different rows of a table have the same 64-bit fingerprint (C99_kernel_exact_partial, C99_rotated_partial). With spin multiplicities given, pairs of rootspaces left out have to be without matrix elements (Screens), which is C108. Missing: nine or more fragments, where C98 is violated; colliding fingerprints."
 },
 "C100": {
  "note": "Proved for up to eight fragments, arbitrary real integrals, rootspaces, local roots, identifications of equal fragment vectors and rotations of linearly equivalent ones, interaction by interaction (screening by multiplicities is covered through C108, the reduction to one member of each spin manifold is C109), under the assumption that no two different rows of a table have the same 64-bit fingerprint (C100_ham_s2_exact_partial, C100_rotated_partial). Missing: nine or more fragments; colliding fingerprints; spin-orbit terms."
 },
 "C101": {
  "note": "Selections with repeated rootspaces are excluded: the code then fills the block of one copy only. No bound on the number of fragments and no assumption on fingerprints. With multiplicities, through C108."
 },
 "C103": {
  "note": "Simulation: the contraction of the density matrices of the interacting fragments with the tables is the sum over bra and ket of the products of coefficients with the result of the kernel of C99; the transformed coefficients with the representatives' vectors are the same linear combination as the caller's coefficients with the caller's vectors. Partial: up to eight fragments, no fingerprint collisions (as C99); coefficients of bra and ket equal or different by at least 1e-8 somewhere (the tolerance of the code); rootspaces with the same numbers of electrons of each spin."
 },
 "C107": {
  "note": "Violated in full: update_ci_ does not compute the spin manifolds again, so that after vectors of one manifold are replaced independently a lookup returns the entry of another member (C107_history_violated, a doublet; the only caller in the library, the Hessian of lassis, builds its tables without multiplicities). Proved: the manifolds found are multiplets, building succeeds and is exact, and after any history lookups are exact if the rootspaces of one manifold are still states of the same multiplets."
 },
 "C108": {
  "note": "The selection rule (a string of n ladder operators changes 2S by at most n) is proved from the algebra of the spin ladder operators for arbitrary members of multiplets; C06 gives the meaning of the test in the C code. The failed-assertion branch is shown not to occur."
 },
 "C109": {
  "note": "Violated in full: the one-fragment term is scaled as if it were a scalar, so that with one-electron integrals that differ for the two spins, which the documentation allows, the elements of all members of a manifold are those of the highest projection (C109_spin_dependent_integrals_violated: number of spin-up electrons of a spin-down doublet computed as 1). Proved for integrals that are the same for both spins, up to eight fragments, after any history of table updates, assuming that Python's hash and the 64-bit fingerprints do not collide and that the manifolds still hold multiplets (C109_manifolds_exact_partial); C109_as_without_manifolds shows that the grouping gives the same matrices as evaluating every interaction."
 },
 "C110": {
  "note": "Proved for up to eight fragments, arbitrary real symmetric integrals, rootspaces, local roots, trial vectors, identifications of equal fragment vectors and rotations of linearly equivalent ones (C110_matvec_partial, C110_overlap_matvec, C110_rotated_partial), assuming that neither the 64-bit fingerprints of the rows nor those of the links of a group collide. Missing: nine or more fragments; colliding fingerprints; spin multiplicities and spin manifolds (reduce_spin); the thresholds below which cached operators are dropped; the GPU branch."
 },
 "C111": {
  "note": "Proved (C111_model_space_partial, C111_hops_complete, C111_flips_up_partial, C111_flips_alone_partial) for references for which every combination of available hops on disjoint pairs of fragments is possible with the total projection, which C111_low_spin shows for every reference of total projection -1/2, 0 or 1/2. Violated: C111_crash_violated (four doublets with total projection 1 and two hops that lower all multiplicities: an IndexError in the product of excitations) and C111_flip_missing_violated (two triplets with projections 1 and -1: the rootspace with the first one flipped to a singlet is left out, because the injected spin flip is filtered by its total projection before the projections are shuffled). Assumes that Python's hash does not collide on rootspaces that differ only in the record of hops."
 },
 "C112": {
  "note": "Proved for the reference and spin-flip vectors (C112_ref_rootspaces, C112_sf_rootspaces) and, for charge hops, whenever the traversal order of a Python set of the two fragments does not depend on the order of insertion (C112_ch_rootspaces_partial), which holds for up to eight fragments (C112_order_small). C112_ch_rootspaces_violated: with nine fragments and a hop from fragment 8 to fragment 0 nothing is found, since tuple(set((8,0))) differs from tuple(set((0,8)))."
 },
 "C113": {
  "note": "Proved: weights (C113_decompose), the one-site density matrix (C113_sdm1, C113_core), the entries of the two-site one (C113_sdm2_partial) and the transition density matrix of one call (C113_trans_sdm1_partial). C113_sdm2_axes_violated: the two-site density matrix has the axes (root, site 1, site 1, site 2, site 2) instead of the documented (root, site 1, site 2, site 1, site 2). C113_lroots_overwritten_violated: _trans_sdm1 overwrites the caller's array of numbers of local states of the ket; C113_second_call_violated: the same call again raises an assertion error."
 },
 "C114": {
  "note": "Proved: numbering (C114_index), overlap matrix (C114_overlap), and the density matrix (C114_density_partial) when Python sets of two fragments are traversed in one order (up to eight fragments) and rootspaces of equal local quantum numbers in which a fragment is the same end of a hop have hops of the same kind, which holds for up to three fragments (C114_density_few_fragments). C114_density_violated: with four doublets the products {0->2 into a singlet, 1->3 into a triplet} and {0->3 into a triplet, 1->2 into a singlet} have the same local quantum numbers, but the block between the two sets of vectors is never filled, because make_fbfdm1 combines only sets whose hops have the same kind."
 },
 "C115": {
  "note": "Proved for all sizes, vectors and matrix elements: contract_1he (C115_one_create, C115_one_destroy), contract_pair_op (C115_pair_create, C115_pair_destroy), contract_h00 (C115_h00), contract_h10, contract_h01, contract_h20, contract_h02. The three-half-electron operator (C115_three_create_partial, C115_three_destroy_partial) is exact for fac=0.5 and elements that are symmetric in the full-electron pair, which is what the fragment methods pass. C115_factor_violated: fac multiplies both parts and twice, so the documented default fac=1 doubles the one-half-electron part (C115_factor says what every factor gives). C115_symmetry_violated: an h3he that is not symmetric, which the documentation allows, is replaced by one of its triangles. PySCF's contract_1e and contract_2e (direct_spin1, direct_uhf) are assumed to give the documented contraction for symmetric elements."
 },
 "C116": {
  "note": "Exact for every size, link table, block size and schedule when each nonzero coefficient exceeds the threshold of the test for empty tiles (1e-14 in absolute value of its real or imaginary part). Partial because the code fails the full statement: vectors whose coefficients are all below that size are contracted to zero (C116_small_violated), and the spin0 routine does not test the symmetry of the vector and returns a wrong, symmetric result for others (C116_spin0_violated, 'TODO: Symmetry check' in the source)."
 },
 "C117": {
  "note": "The C routines are exact for every size, link table and schedule when the square of each nonzero coefficient exceeds 1e-28 (make_rdm1s and make_rdm1 without this condition), and the python routines for vectors of norm one. Partial because the code fails the full statement: make_rdm12s_py divides the caller's vector by its norm in place and returns the matrices of the normalized vector, unlike the C version (C117_rdm12s_py_violated), and rows with small coefficients are dropped (C117_small_violated). The branch PARTICLESYM of the C driver, which no caller selects, is not modelled."
 },
 "C118": {
  "note": "The phases enter only through their unitarity; get_veff, ao2mo_7d and kconserv are external and enter through the stated symmetries. Observed: k_phase is the identity, so the 'Wannier' orbitals of k2R.py are Bloch orbitals of the supercell; the results above hold for these."
 },
 "C119": {
  "note": "Partial: the caller's orbitals are protected only if they are one ndarray. PySCF's k-point mean-field objects keep a list of arrays, list.copy() is shallow, and the assignment mo_coeff1[k][:,idx] = ... overwrites the orbitals of the mean-field object (C119_caller_violated, for every eigensolver)."
 },
 "C120": {
  "note": "Partial: the Hermiticity check takes np.max of complex numbers, which compares real parts, so an imaginary symmetric part of any size passes and eigh diagonalizes another matrix (C120_eig_violated); the singlet solver's get_init_guess uses the dtype of a list for several roots and always fails (C120_guess_violated)."
 },
 "C121": {
  "note": "Partial: get_veff () without a density matrix calls make_rdm1 (include_core=True), but make_rdm1s already adds the core density and passes include_core on, so the core electrons are counted twice (C121_veff_default_violated); without core orbitals it is right (C121_veff_default_partial). The energies, the average, the effective Hamiltonians of the fragments, the integral slices and the density matrices are proved in full. The weighted sum needs weights of sum one and solvers whose weights are those of the LASSCF object (make_casdm2_sub reads the solvers' weights)."
 },
 "C122": {
  "note": "Partial: the C code computes the position of an orbital's row in 32-bit unsigned arithmetic, so for results of more than 2^32 elements rows of different orbitals are added up in the same place, and an array in column-major order, which the constructor accepts, is not contracted because naux_slow calls a function that does not exist (C122_shape_violated). For arrays whose positions are representable, every schedule and block division gives the contracted vectors up to the dropped pairs (C122_contract1_partial, C122_contract1_error_partial) and, if no small non-vanishing pair is dropped, the packed integrals (C122_h2eff_partial). The inferred number of orbitals and the potential of the active electrons are proved in full."
 },
 "C123": {
  "note": "Partial: if fewer vectors are stored than there are roots, Q.T @ ci0g multiplies an array of three dimensions, so that the call raises a ValueError for all vectors unless the number of roots is the number of alpha strings; if it is, determinants instead of roots are mixed and the appended vectors are not orthogonal to the stored ones, whichever QR factorization is returned; and size % ndet[0]*ndet[1] tests divisibility by the number of alpha strings only, so that stored arrays of another dimension can make reshape fail (C123_few_violated). If the call returns, it returns as many vectors as there are roots, the stored ones first (C123_stored_partial). The cases without stored vectors, with enough of them and with sizes that are not a multiple of the number of alpha strings are proved in full."
 },
 "C124": {
  "note": "Proved for real orbitals without point-group symmetry (orbsym is None). The diagonalization, np.argsort and the rotation of CI vectors are parameters; the first two enter by what they promise for every symmetric matrix and every list (instances of both are constructed). An empty active space, for which np.amax raises, is outside of the model."
 },
 "C125": {
  "note": "Partial: _get_minmax_occs takes what the other fragments need as the upper limit of a fragment (and subtracts the spins of the others from its electrons), which is right only for two equal fragments (C125_two_equal_partial, with overlaps strictly between 0 and 1 and fragments defined by enough orbitals). C125_division_violated: three equal closed-shell fragments receive 4, 2 and 0 electrons, a triplet and a singlet of two electrons each receive 3 and 1, and in a minimal basis _svd raises an IndexError for all overlaps, since it counts rows (k1 = len (mo_lvecs[:,:k])) instead of columns."
 },
 "C126": {
  "note": "Partial: no coupling is missing if there are no singlets (C126_complete_partial), and nothing else is contained if all subunits but the first are doublets and a coupling exists (C126_exact_partial). C126_table_violated: find_lowerable_nodes does not test the lower limits |S - s| with s > S, so that two quartets after a doublet give a path through spin zero; a singlet blocks the lowering of its neighbours one at a time, so that a coupling of [2,2,1,2,2] is missing; a total spin too low to be reached is not rejected."
 },
 "C127": {
  "note": "Partial: proved for doubled quantum numbers, the default (C127_vector_partial: strings, coefficients and agreement with cg_prod), and for integral spins with fac=1 (C127_integral_partial: strings). C127_strings_violated: with fac=1 half-integral projections are floored, so that (1/2,-1/2) is returned as (0,-1); cg_prod_vec does not test the parity of the total projection as cg_prod does, and returns half-integral projections of triplets."
 },
 "C128": {
  "note": "Partial: everything is proved up to and including the Schmidt decomposition (C128_schmidt_partial); when gradient orbitals are added, orthonormality and the space are preserved, and no orbital left in the environment has a larger gradient than one added, if there are no more inactive and no more external environment orbitals than fragment orbitals (C128_gradorbs_partial, C128_largest_partial). C128_gradorbs_violated: _ia2x_gradorbs sorts the columns of the inactive and external environment by the singular values of both decompositions put together, which are fewer than the columns if there are more environment than fragment orbitals; the external ones are then taken from the wrong columns and the rest is dropped, so that the only orbital with a gradient is lost."
 },
 "C129": {
  "note": "Partial: if the singular values below the threshold are zero and the second decomposition succeeds, the result is a singular value decomposition with square orthogonal matrices, for any eigenvectors of degenerate singular values (C129_fallback_partial). C129_shapes_violated: with full_matrices=False, u and v are truncated after vH was made from v, so vH has as many rows as the matrix has columns, instead of the smaller dimension, if the matrix has more columns than rows."
 },
 "C130": {
  "note": "Partial: integrals are Hermitian in both cases (C130_hermitian) and the approximation is as stated (C130_atomic). C130_one_atom_violated: compute_hso with amfi=False uses the one-electron integrals int1e_prinvxp of the origin of coordinates as they are, without the charge of any nucleus and without the minus sign, so that for one atom at the origin, where the approximation should change nothing, the one-electron part has the wrong sign and is too small by the nuclear charge; nuclei elsewhere do not contribute."
 },
 "C131": {
  "note": "Partial: proved for one bra space if the states of the last ket space come first (C131_one_space_partial). C131_index_violated: the loop over kets overwrites the number of the bra space with the first column of the ket space, so the terms of all bra spaces are added to the array whose number is the number of states before the last ket space, the other arrays receive none, and if there is no such array an error is raised. Without SI vectors; array shapes are not modelled."
 }
}