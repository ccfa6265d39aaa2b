{
 "claims": [
  {
   "property": "C01",
   "status": "proved",
   "theorems": [
    "Verif.Props.C01_spin_shuffle_sign",
    "Verif.Props.C01_spin_shuffle_rejects"
   ],
   "note": ""
  },
  {
   "property": "C02",
   "status": "partial",
   "theorems": [
    "Verif.Props.C02_frag_shuffle_sign_partial",
    "Verif.Props.C02_frag_shuffle_sign_of_ascending",
    "Verif.Props.C02_frag_shuffle_violated"
   ],
   "note": "False as stated: CPython set iteration order is not ascending for fragment indices >= 8 (C02_frag_shuffle_violated); proved for indices < 8 and for every ascending iteration order."
  },
  {
   "property": "C03",
   "status": "partial",
   "theorems": [
    "Verif.Props.C03_des_shuffle_sign_of_ascending",
    "Verif.Props.C03_des_shuffle_sign_partial",
    "Verif.Props.C03_des_shuffle_rejects",
    "Verif.Props.C03_des_shuffle_violated"
   ],
   "note": "Same defect as C02 (C03_des_shuffle_violated); proved for indices < 8 and for every ascending iteration order."
  },
  {
   "property": "C04",
   "status": "proved",
   "theorems": [
    "Verif.Props.C04_hopping_index"
   ],
   "note": ""
  },
  {
   "property": "C05",
   "status": "proved",
   "theorems": [
    "Verif.Props.C05_screening_iff_two_hops",
    "Verif.Props.C05_screening_symmetric"
   ],
   "note": ""
  },
  {
   "property": "C06",
   "status": "proved",
   "theorems": [
    "Verif.Props.C06_spin_screening_iff",
    "Verif.Props.C06_spin_screening_refines",
    "Verif.Props.C06_spin_screening_symmetric",
    "Verif.Props.C06_equal_smult"
   ],
   "note": ""
  },
  {
   "property": "C07",
   "status": "proved",
   "theorems": [
    "Verif.Props.C07_interaction_list",
    "Verif.Props.C07_interaction_list_charge"
   ],
   "note": ""
  },
  {
   "property": "C08",
   "status": "proved",
   "theorems": [
    "Verif.Props.C08_fprintLT_invariant",
    "Verif.Props.C08_fprintLT_faithful",
    "Verif.Props.C08_fprint_faithful"
   ],
   "note": ""
  },
  {
   "property": "C09",
   "status": "proved",
   "theorems": [
    "Verif.Props.C09_fnv_one_word",
    "Verif.Props.C09_fnv_collisions"
   ],
   "note": ""
  },
  {
   "property": "C10",
   "status": "proved",
   "theorems": [
    "Verif.Props.C10_classification",
    "Verif.Props.C10_table_classes",
    "Verif.Props.C10_tril",
    "Verif.Props.C10_derived_tables"
   ],
   "note": ""
  },
  {
   "property": "C11",
   "status": "proved",
   "theorems": [
    "Verif.Props.C11_bijection",
    "Verif.Props.C11_stateIndex"
   ],
   "note": ""
  },
  {
   "property": "C12",
   "status": "proved",
   "theorems": [
    "Verif.Props.C12_action",
    "Verif.Props.C12_identity",
    "Verif.Props.C12_compose",
    "Verif.Props.C12_commute"
   ],
   "note": ""
  },
  {
   "property": "C13",
   "status": "proved",
   "theorems": [
    "Verif.Props.C13_unique_roots"
   ],
   "note": ""
  },
  {
   "property": "C14",
   "status": "proved",
   "theorems": [
    "Verif.Props.C14_transpose_C",
    "Verif.Props.C14_transpose_F",
    "Verif.Props.C14_inverse",
    "Verif.Props.C14_rejects",
    "Verif.Props.C14_make_fragments_slow",
    "Verif.Props.C14_slow_fragments_roundtrip"
   ],
   "note": ""
  },
  {
   "property": "C15",
   "status": "proved",
   "theorems": [
    "Verif.Props.C15_permutation",
    "Verif.Props.C15_separates_spins"
   ],
   "note": ""
  },
  {
   "property": "C16",
   "status": "partial",
   "theorems": [
    "Verif.Props.C16_copies",
    "Verif.Props.C16_equal_length_partial",
    "Verif.Props.C16_equal_length_violated"
   ],
   "note": "The copy list is proved exact. The 'equal lengths' clause fails for an all-False mask: the source-start array has one element more (C16_equal_length_violated); proved when some element is selected."
  },
  {
   "property": "C17",
   "status": "proved",
   "theorems": [
    "Verif.Props.C17_tiles",
    "Verif.Props.C17_zero"
   ],
   "note": ""
  },
  {
   "property": "C18",
   "status": "proved",
   "theorems": [
    "Verif.Props.C18_slices",
    "Verif.Props.C18_sum",
    "Verif.Props.C18_weights"
   ],
   "note": ""
  },
  {
   "property": "C19",
   "status": "partial",
   "theorems": [
    "Verif.Props.C19_scatter1_partial",
    "Verif.Props.C19_scatter2_partial",
    "Verif.Props.C19_scatter2_overflow_violated"
   ],
   "note": "Proved for all sizes whose int products fit 32 bits. The two-body kernel multiplies npdest*npdest in int, so it overflows from 216 active orbitals (C19_scatter2_overflow_violated)."
  },
  {
   "property": "C20",
   "status": "partial",
   "theorems": [
    "Verif.Props.C20_eq_meaning",
    "Verif.Props.C20_equal_hash_partial",
    "Verif.Props.C20_set_partial",
    "Verif.Props.C20_equal_hash_violated"
   ],
   "note": "Equality means equality of all compared numbers (proved). Hash agreement and set deduplication are proved for rootspaces with the same entmap; violated in general: entmap enters the hash but not the comparison."
  },
  {
   "property": "C21",
   "status": "proved",
   "theorems": [
    "Verif.Props.C21_any_m_complete",
    "Verif.Props.C21_singles",
    "Verif.Props.C21_singles_conserve",
    "Verif.Props.C21_get_single",
    "Verif.Props.C21_any_m"
   ],
   "note": ""
  },
  {
   "property": "C22",
   "status": "proved",
   "theorems": [
    "Verif.Props.C22_valid_changes"
   ],
   "note": ""
  },
  {
   "property": "C23",
   "status": "proved",
   "theorems": [
    "Verif.Props.C23_table"
   ],
   "note": ""
  },
  {
   "property": "C24",
   "status": "proved",
   "theorems": [
    "Verif.Props.C24_table",
    "Verif.Props.C24_nonempty"
   ],
   "note": ""
  },
  {
   "property": "C25",
   "status": "proved",
   "theorems": [
    "Verif.Props.C25_sum_rule"
   ],
   "note": ""
  },
  {
   "property": "C26",
   "status": "proved",
   "theorems": [
    "Verif.Props.C26_orthogonal"
   ],
   "note": ""
  },
  {
   "property": "C27",
   "status": "partial",
   "theorems": [
    "Verif.Props.C27_windows",
    "Verif.Props.C27_all_partial",
    "Verif.Props.C27_any_partial",
    "Verif.Props.C27_any_keeps",
    "Verif.Props.C27_any_violated",
    "Verif.Props.C27_all_violated"
   ],
   "note": "Charge/multiplicity windows exact; target lists exact when parity matches (all) or for one target (any); violated in general (parity ignored, and 'any' tests lower and upper bound against different targets)."
  },
  {
   "property": "C28",
   "status": "proved",
   "theorems": [
    "Verif.Props.C28_shuffle",
    "Verif.Props.C28_equal_weights",
    "Verif.Props.C28_idempotent"
   ],
   "note": ""
  },
  {
   "property": "C29",
   "status": "partial",
   "theorems": [
    "Verif.Props.C29_preferred",
    "Verif.Props.C29_all_singles",
    "Verif.Props.C29_filtered",
    "Verif.Props.C29_filter_violated"
   ],
   "note": "The listing and its spin-shuffle filter are proved; the filter compares every excitation with the first reference only, so with references of different electron number it can raise IndexError (C29_filter_violated)."
  },
  {
   "property": "C30",
   "status": "proved",
   "theorems": [
    "Verif.Props.C30_orthogonal",
    "Verif.Props.C30_commute",
    "Verif.Props.C30_electrons",
    "Verif.Props.C30_flexible",
    "Verif.Props.C30_records_disjoint"
   ],
   "note": ""
  },
  {
   "property": "C31",
   "status": "proved",
   "theorems": [
    "Verif.Props.C31_meaning",
    "Verif.Props.C31_equivalence",
    "Verif.Props.C31_manifolds"
   ],
   "note": ""
  },
  {
   "property": "C32",
   "status": "proved",
   "theorems": [
    "Verif.Props.C32_keys",
    "Verif.Props.C32_entries",
    "Verif.Props.C32_norms",
    "Verif.Props.C32_mdown",
    "Verif.Props.C32_mup",
    "Verif.Props.C32_ladder"
   ],
   "note": ""
  },
  {
   "property": "C33",
   "status": "proved",
   "theorems": [
    "Verif.Props.C33_split",
    "Verif.Props.C33_surjective",
    "Verif.Props.C33_manifolds"
   ],
   "note": ""
  },
  {
   "property": "C34",
   "status": "partial",
   "theorems": [
    "Verif.Props.C34_aligned_partial",
    "Verif.Props.C34_aligned_violated",
    "Verif.Props.C34_unit_columns"
   ],
   "note": "False as stated: SmultShifter._matvec advances the block offsets only for manifolds present in both bases, so after a manifold that exists in one basis only all later manifolds are misaligned (C34_aligned_violated); proved when no manifold is empty in one basis only."
  },
  {
   "property": "C35",
   "status": "proved",
   "theorems": [
    "Verif.Props.C35_table",
    "Verif.Props.C35_roundtrip",
    "Verif.Props.C35_project",
    "Verif.Props.C35_zero",
    "Verif.Props.C35_weights"
   ],
   "note": ""
  },
  {
   "property": "C36",
   "status": "proved",
   "theorems": [
    "Verif.Props.C36_visits",
    "Verif.Props.C36_disjoint",
    "Verif.Props.C36_schedule_rotation",
    "Verif.Props.C36_schedule_accumulate"
   ],
   "note": ""
  },
  {
   "property": "C37",
   "status": "partial",
   "theorems": [
    "Verif.Props.C37_compose",
    "Verif.Props.C37_restore_partial",
    "Verif.Props.C37_norm_partial",
    "Verif.Props.C37_restore_violated"
   ],
   "note": "False as stated at the C level for i = a up to order (C37_restore_violated: the kernel then overwrites one entry twice); proved whenever the two strings are not rearrangements of each other, which FSUCCOperator guarantees (C69)."
  },
  {
   "property": "C38",
   "status": "proved",
   "theorems": [
    "Verif.Props.C38_projects",
    "Verif.Props.C38_idempotent",
    "Verif.Props.C38_interacting"
   ],
   "note": ""
  },
  {
   "property": "C39",
   "status": "proved",
   "theorems": [
    "Verif.Props.C39_triangle",
    "Verif.Props.C39_fullhop"
   ],
   "note": ""
  },
  {
   "property": "C40",
   "status": "proved",
   "theorems": [
    "Verif.Props.C40_spin",
    "Verif.Props.C40_vacuum",
    "Verif.Props.C40_spin_involution",
    "Verif.Props.C40_vacuum_involution"
   ],
   "note": ""
  },
  {
   "property": "C41",
   "status": "proved",
   "theorems": [
    "Verif.Props.C41_las",
    "Verif.Props.C41_lassi",
    "Verif.Props.C41_lassis"
   ],
   "note": ""
  },
  {
   "property": "C42",
   "status": "partial",
   "theorems": [
    "Verif.Props.C42_las",
    "Verif.Props.C42_lassi_partial",
    "Verif.Props.C42_lassi_violated",
    "Verif.Props.C42_lassis_violated"
   ],
   "note": "Holds for LASSCF at every crash point (C42_las). Violated for LASSI (the LAS and LASSI records are replaced one after the other: a crash in between loads new LAS with old LASSI data) and for LASSIS (vectors not yet written load as None)."
  },
  {
   "property": "C43",
   "status": "partial",
   "theorems": [
    "Verif.Props.C43_roundtrip_partial",
    "Verif.Props.C43_tuple_violated",
    "Verif.Props.C43_bool_violated"
   ],
   "note": "Holds for None, integers, arrays, lists and dicts. Violated for tuples (never come back as tuples) and booleans (load raises ValueError)."
  },
  {
   "property": "C44",
   "status": "partial",
   "theorems": [
    "Verif.Props.C44_load_violated",
    "Verif.Props.C44_unchanged_partial"
   ],
   "note": "Violated: load_chk_ can never return True; it reports a mismatch or raises ValueError (iterates over dict keys and unpacks them). What holds: the object is left unchanged."
  },
  {
   "property": "C45",
   "status": "partial",
   "theorems": [
    "Verif.Props.C45_partial",
    "Verif.Props.C45_violated"
   ],
   "note": "Gradient, spread and cycle-count conditions are proved exact, and the returned state is that of the stopping cycle. False for the fragment solvers: line 52 tests all([solvers_converged]), the truth value of a non-empty list (C45_violated)."
  },
  {
   "property": "C46",
   "status": "partial",
   "theorems": [
    "Verif.Props.C46_partial",
    "Verif.Props.C46_violated"
   ],
   "note": "np.all of a generator is always true, so the flag is set whatever the components report (C46_violated)."
  },
  {
   "property": "C47",
   "status": "partial",
   "theorems": [
    "Verif.Props.C47_single_block_partial",
    "Verif.Props.C47_all_partial",
    "Verif.Props.C47_violated",
    "Verif.Props.C47_trivial_violated"
   ],
   "note": "The flag is overwritten by each block that needs a diagonalization (C47_violated), and stays False if no block does (C47_trivial_violated). Proved exact for one non-trivial block, and when all converge."
  },
  {
   "property": "C48",
   "status": "partial",
   "theorems": [
    "Verif.Props.C48_violated",
    "Verif.Props.C48_partial"
   ],
   "note": "LASSI.kernel sets sisolver.level_shift_si, nroots_si and privref_si, which the diagonalizer never reads (C48_violated); pspace_size_si and smult_si are proved to arrive."
  },
  {
   "property": "C49",
   "status": "proved",
   "theorems": [
    "Verif.Props.C49_assembly"
   ],
   "note": ""
  },
  {
   "property": "C50",
   "status": "proved",
   "theorems": [
    "Verif.Props.C50_restored",
    "Verif.Props.C50_inside"
   ],
   "note": ""
  },
  {
   "property": "C51",
   "status": "proved",
   "theorems": [
    "Verif.Props.C51_summed",
    "Verif.Props.C51_separated",
    "Verif.Props.C51_consistent",
    "Verif.Props.C51_formula"
   ],
   "note": ""
  },
  {
   "property": "C52",
   "status": "proved",
   "theorems": [
    "Verif.Props.C52_sum"
   ],
   "note": ""
  },
  {
   "property": "C53",
   "status": "partial",
   "theorems": [
    "Verif.Props.C53_weights_partial",
    "Verif.Props.C53_violated"
   ],
   "note": "The prefactor is 1/ndim!, i.e. 1/2 for one-body and 1/24 for two-body arrays instead of 1 and 1/2 (C53_violated); what is computed is proved (C53_weights_partial)."
  },
  {
   "property": "C54",
   "status": "proved",
   "theorems": [
    "Verif.Props.C54_projected",
    "Verif.Props.C54_current"
   ],
   "note": "Proved in the stronger form: the effective Hamiltonian gives the right energy for every new state of the fragment (C54_projected); the English statement is C54_current. Assumes (pq|rs)=(rs|pq)=(qp|sr) and symmetric one-body densities."
  },
  {
   "property": "C55",
   "status": "proved",
   "theorems": [
    "Verif.Props.C55_one_fragment",
    "Verif.Props.C55_fair"
   ],
   "note": ""
  },
  {
   "property": "C56",
   "status": "proved",
   "theorems": [
    "Verif.Props.C56_history",
    "Verif.Props.C56_orbitals"
   ],
   "note": ""
  },
  {
   "property": "C57",
   "status": "proved",
   "theorems": [
    "Verif.Props.C57_roundtrip",
    "Verif.Props.C57_entries"
   ],
   "note": ""
  },
  {
   "property": "C58",
   "status": "partial",
   "theorems": [
    "Verif.Props.C58_owner",
    "Verif.Props.C58_unowned",
    "Verif.Props.C58_veff",
    "Verif.Props.C58_dm1s_partial",
    "Verif.Props.C58_dm1s_violated"
   ],
   "note": "False of the density matrix: combine.py:73 sums kf2.dm1s over a comprehension variable named dm1s, so kf2 is the last keyframe and the 'average' is the last keyframe's density matrix (C58_dm1s_violated). Ownership of orbitals and CI vectors and the averaged potential are proved in full. Numerical steps (Loewdin, SVD, QR, diagonalization) are not modelled."
  },
  {
   "property": "C59",
   "status": "proved",
   "theorems": [
    "Verif.Props.C59_selection"
   ],
   "note": ""
  },
  {
   "property": "C60",
   "status": "partial",
   "theorems": [
    "Verif.Props.C60_length_partial",
    "Verif.Props.C60_roundtrip_partial",
    "Verif.Props.C60_length_violated",
    "Verif.Props.C60_roundtrip_violated"
   ],
   "note": "coords.py sizes both spin components of a charge-hop vector with the first one's transformer, so the round trip and the length fail when the two components have different CSF counts (C60_length_violated, C60_roundtrip_violated); proved when the shapes agree (_partial)."
  },
  {
   "property": "C61",
   "status": "proved",
   "theorems": [
    "Verif.Props.C61_carry",
    "Verif.Props.C61_ambiguous",
    "Verif.Props.C61_exactly_one",
    "Verif.Props.C61_info",
    "Verif.Props.C61_info_wrong_parity",
    "Verif.Props.C61_defaults"
   ],
   "note": "Proved. For a spin of the wrong parity the request is accepted and silently changed (C61_info_wrong_parity)."
  },
  {
   "property": "C62",
   "status": "proved",
   "theorems": [
    "Verif.Props.C62_exact"
   ],
   "note": ""
  },
  {
   "property": "C63",
   "status": "proved",
   "theorems": [
    "Verif.Props.C63_recognizes",
    "Verif.Props.C63_describes",
    "Verif.Props.C63_describes_none",
    "Verif.Props.C63_key_injective",
    "Verif.Props.C63_possible"
   ],
   "note": ""
  },
  {
   "property": "C64",
   "status": "proved",
   "theorems": [
    "Verif.Props.C64_raw_blocks",
    "Verif.Props.C64_raw_cover"
   ],
   "note": ""
  },
  {
   "property": "C65",
   "status": "proved",
   "theorems": [
    "Verif.Props.C65_adjoint",
    "Verif.Props.C65_coupled_adjoint",
    "Verif.Props.C65_inverse"
   ],
   "note": ""
  },
  {
   "property": "C66",
   "status": "partial",
   "theorems": [
    "Verif.Props.C66_operator",
    "Verif.Props.C66_exponential_partial"
   ],
   "note": "The accumulating kernel is proved for every pair of strings; the exponential for strings that are not rearrangements of each other."
  },
  {
   "property": "C67",
   "status": "partial",
   "theorems": [
    "Verif.Props.C67_derivative_projected",
    "Verif.Props.C67_derivative_violated"
   ],
   "note": "The code comment (derivative without projecting spectators) is false (C67_derivative_violated); with the projection, as get_deriv1 does it, it is proved."
  },
  {
   "property": "C68",
   "status": "proved",
   "theorems": [
    "Verif.Props.C68_spin"
   ],
   "note": ""
  },
  {
   "property": "C69",
   "status": "partial",
   "theorems": [
    "Verif.Props.C69_sane",
    "Verif.Props.C69_no_duplicates",
    "Verif.Props.C69_restore",
    "Verif.Props.C69_unitary",
    "Verif.Props.C69_dtype_violated"
   ],
   "note": "Proved for C-contiguous float64 arrays; for other arrays the ctypes call works on a copy and __call__ silently returns the untransformed vector (C69_dtype_violated)."
  },
  {
   "property": "C70",
   "status": "proved",
   "theorems": [
    "Verif.Props.C70_derivative"
   ],
   "note": ""
  },
  {
   "property": "C71",
   "status": "partial",
   "theorems": [
    "Verif.Props.C71_forward",
    "Verif.Props.C71_transpose_violated"
   ],
   "note": "Proved for transpose=False; with transpose=True and two or more generators the iteration raises RuntimeError (C71_transpose_violated)."
  },
  {
   "property": "C72",
   "status": "proved",
   "theorems": [
    "Verif.Props.C72_gradient"
   ],
   "note": ""
  },
  {
   "property": "C73",
   "status": "proved",
   "theorems": [
    "Verif.Props.C73_operator",
    "Verif.Props.C73_symmetric"
   ],
   "note": ""
  },
  {
   "property": "C74",
   "status": "proved",
   "theorems": [
    "Verif.Props.C74_number_operator"
   ],
   "note": ""
  },
  {
   "property": "C75",
   "status": "proved",
   "theorems": [
    "Verif.Props.C75_spin_shuffle"
   ],
   "note": ""
  },
  {
   "property": "C76",
   "status": "proved",
   "theorems": [
    "Verif.Props.C76_frag_shuffle"
   ],
   "note": ""
  },
  {
   "property": "C77",
   "status": "proved",
   "theorems": [
    "Verif.Props.C77_onv_str"
   ],
   "note": ""
  },
  {
   "property": "C78",
   "status": "partial",
   "theorems": [
    "Verif.Props.C78_sticky_violated",
    "Verif.Props.C78_first_call_partial"
   ],
   "note": "self.converged = self.converged and self.converged_si is sticky: after one failure no later call reports convergence (C78_sticky_violated)."
  },
  {
   "property": "C79",
   "status": "proved",
   "theorems": [
    "Verif.Props.C79_formula",
    "Verif.Props.C79_cumulant"
   ],
   "note": ""
  },
  {
   "property": "C80",
   "status": "proved",
   "theorems": [
    "Verif.Props.C80_product_cumulant"
   ],
   "note": ""
  },
  {
   "property": "C81",
   "status": "partial",
   "theorems": [
    "Verif.Props.C81_completes",
    "Verif.Props.C81_default_limit_partial",
    "Verif.Props.C81_small_limit_violated"
   ],
   "note": "Completion is proved for every number of fragments and every limit. Every fragment's update survives if the limit is at least the number of fragments (default). With a smaller combine_pair_max_frags the responsibilities of the merged keyframe shrink to the relaxed fragments, so from five fragments on later rounds take other fragments from the reference keyframe and their update is lost (C81_small_limit_violated)."
  },
  {
   "property": "C82",
   "status": "proved",
   "theorems": [
    "Verif.Props.C82_average",
    "Verif.Props.C82_state"
   ],
   "note": "Proved element by element for every fragmentation, for fragment states of definite electron number and spin projection with symmetric one-body density matrices."
  },
  {
   "property": "C83",
   "status": "partial",
   "theorems": [
    "Verif.Props.C83_same_spin",
    "Verif.Props.C83_opposite_spin_partial",
    "Verif.Props.C83_opposite_spin_violated"
   ],
   "note": "aa and bb proved in full. ab is filled as if ab = ba: for fragments f < g the element (gg|ff) receives alpha of f times beta of g, i.e. the transposed element (C83_opposite_spin_violated); all other elements, and all elements for fragments with equal alpha and beta densities, are proved (C83_opposite_spin_partial)."
  },
  {
   "property": "C84",
   "status": "partial",
   "theorems": [
    "Verif.Props.C84_spin_summed_partial",
    "Verif.Props.C84_spin_violated",
    "Verif.Props.C84_weights_violated"
   ],
   "note": "Two errors of the code: the rootspace weights enter inter-fragment terms twice, so they are squared (C84_weights_violated), and terms 7 and 8 use the ab component of a fragment's two-body density twice instead of ab plus ba (C84_spin_violated). Proved for weights with w^2 = w (one rootspace) and fragments whose ab and ba components agree, for every element."
  },
  {
   "property": "C85",
   "status": "partial",
   "theorems": [
    "Verif.Props.C85_same_spin_partial",
    "Verif.Props.C85_abb_partial",
    "Verif.Props.C85_aab_partial",
    "Verif.Props.C85_aab_violated"
   ],
   "note": "aaa, bbb and abb proved for one rootspace (weights are squared otherwise, see C84_weights_violated). In aab the exchange of two alpha electrons between fragments f < h around a fragment g between them uses the alpha density of g and the beta density of h (C85_aab_violated); all other elements are proved (C85_aab_partial)."
  },
  {
   "property": "C86",
   "status": "proved",
   "theorems": [
    "Verif.Props.C86_mask",
    "Verif.Props.C86_once",
    "Verif.Props.C86_lasscf",
    "Verif.Props.C86_laspscf"
   ],
   "note": "Proved."
  },
  {
   "property": "C87",
   "status": "proved",
   "theorems": [
    "Verif.Props.C87_pack_unpack",
    "Verif.Props.C87_unpack",
    "Verif.Props.C87_unpack_pack"
   ],
   "note": "Proved, assuming that CSFTransformer maps between determinants and configuration state functions with the announced lengths and csf -> det -> csf is the identity."
  },
  {
   "property": "C88",
   "status": "partial",
   "theorems": [
    "Verif.Props.C88_identify_partial",
    "Verif.Props.C88_frozen_violated"
   ],
   "note": "ncsf_sub leaves out the rows of frozen fragments, but addr2idstr indexes its sums with the number of the fragment. With frozen_ci set for a fragment before another one the wrong row is used or an IndexError ends the calculation (the microiteration callback calls it on every iteration), see C88_frozen_violated. Proved when all frozen fragments come last."
  },
  {
   "property": "C89",
   "status": "partial",
   "theorems": [
    "Verif.Props.C89_trust_partial",
    "Verif.Props.C89_trust_violated"
   ],
   "note": "Proved when degrees of freedom can be masked (trust radius at least pi, the default) and when the Hessian diagonal is non-negative. With negative elements and nothing to mask, the shift g/x + g/trust can be too small and the assertion fails (C89_trust_violated: default trust radius, gradient (3,4), diagonal (-1, 1/100))."
  },
  {
   "property": "C90",
   "status": "partial",
   "theorems": [
    "Verif.Props.C90_first_lower",
    "Verif.Props.C90_energy_partial",
    "Verif.Props.C90_energy_violated"
   ],
   "note": "Of three trial steps the first that lowers the energy is taken (proved). If none does, the last one is taken although it raises the energy (C90_energy_violated)."
  },
  {
   "property": "C91",
   "status": "proved",
   "theorems": [
    "Verif.Props.C91_converged",
    "Verif.Props.C91_lasscf"
   ],
   "note": "Proved for every history. CI solvers, gradients and steps are parameters. The second criterion (internal gradient below a tenth of the external one) can end LASPSCF with larger gradients; it is part of the statement."
  },
  {
   "property": "C92",
   "status": "proved",
   "theorems": [
    "Verif.Props.C92_normalized",
    "Verif.Props.C92_frozen"
   ],
   "note": "Proved over the reals."
  },
  {
   "property": "C93",
   "status": "proved",
   "theorems": [
    "Verif.Props.C93_coefficients"
   ],
   "note": "Proved. cistring.sub_addrs and NumPy's outer, transpose, reshape and intersect1d are modelled as documented."
  },
  {
   "property": "C94",
   "status": "proved",
   "theorems": [
    "Verif.Props.C94_overlap",
    "Verif.Props.C94_skip"
   ],
   "note": "Proved, with and without uncontracted fragments, for the ket's electron numbers; for other electron numbers see C97."
  },
  {
   "property": "C95",
   "status": "proved",
   "theorems": [
    "Verif.Props.C95_overlap_matrix",
    "Verif.Props.C95_filter_exact"
   ],
   "note": "Proved; coefficients are not complex-conjugated, so for complex vectors it is the bilinear product that the code computes."
  },
  {
   "property": "C96",
   "status": "proved",
   "theorems": [
    "Verif.Props.C96_sectors_covered",
    "Verif.Props.C96_coefficients",
    "Verif.Props.C96_roundtrip",
    "Verif.Props.C96_scalar_product"
   ],
   "note": "Proved."
  },
  {
   "property": "C97",
   "status": "partial",
   "theorems": [
    "Verif.Props.C97_constant_partial",
    "Verif.Props.C97_constant_violated",
    "Verif.Props.C97_bra_sectors_partial",
    "Verif.Props.C97_bra_sectors_violated",
    "Verif.Props.C97_block_shape_partial",
    "Verif.Props.C97_block_shape_violated",
    "Verif.Props.C97_memory_partial",
    "Verif.Props.C97_memory_violated"
   ],
   "note": "With spin-orbit coupling the constant is added twice (C97_constant_violated); spin sectors that only the bra has are a KeyError, because the bra's tables are built from the ket (C97_bra_sectors_violated); rootspaces of other spin sectors give a one-dimensional block of zeros (C97_block_shape_violated); the memory check uses the size of spin-free vectors also with spin-orbit coupling (C97_memory_violated). The rest is proved."
  },
  {
   "property": "C98",
   "status": "partial",
   "theorems": [
    "Verif.Props.C98_pair_exact_partial",
    "Verif.Props.C98_nine_fragments_violated"
   ],
   "note": "Proved for up to eight fragments, for arbitrary fragment vectors with definite electron numbers (C98_pair_exact_partial). With nine fragments the list made from a set of fragment numbers is not ascending and the sign of a hop can be wrong (C98_nine_fragments_violated)."
  },
  {
   "property": "C99",
   "status": "partial",
   "theorems": [
    "Verif.Props.C99_kernel_exact_partial",
    "Verif.Props.C99_rotated_partial"
   ],
   "note": "Proved for up to eight fragments, arbitrary rootspaces, local roots, identifications of equal fragment vectors and rotations of linearly equivalent ones (umat_root), under the assumption that no two different rows of a table have the same 64-bit fingerprint (C99_kernel_exact_partial, C99_rotated_partial). With spin multiplicities given, pairs of rootspaces left out have to be without matrix elements (Screens), which is C108. Missing: nine or more fragments, where C98 is violated; colliding fingerprints."
  },
  {
   "property": "C100",
   "status": "partial",
   "theorems": [
    "Verif.Props.C100_ham_s2_exact_partial",
    "Verif.Props.C100_rotated_partial"
   ],
   "note": "Proved for up to eight fragments, arbitrary real integrals, rootspaces, local roots, identifications of equal fragment vectors and rotations of linearly equivalent ones, interaction by interaction (screening by multiplicities is covered through C108, the reduction to one member of each spin manifold is C109), under the assumption that no two different rows of a table have the same 64-bit fingerprint (C100_ham_s2_exact_partial, C100_rotated_partial). Missing: nine or more fragments; colliding fingerprints; spin-orbit terms."
  },
  {
   "property": "C101",
   "status": "proved",
   "theorems": [
    "Verif.Props.C101_overlap"
   ],
   "note": "Selections with repeated rootspaces are excluded: the code then fills the block of one copy only. No bound on the number of fragments and no assumption on fingerprints. With multiplicities, through C108."
  },
  {
   "property": "C102",
   "status": "proved",
   "theorems": [
    "Verif.Props.C102_linequiv_loop"
   ],
   "note": ""
  },
  {
   "property": "C103",
   "status": "partial",
   "theorems": [
    "Verif.Props.C103_roots_trans_rdm12s_partial",
    "Verif.Props.C103_roots_make_rdm12s_partial"
   ],
   "note": "Simulation: the contraction of the density matrices of the interacting fragments with the tables is the sum over bra and ket of the products of coefficients with the result of the kernel of C99; the transformed coefficients with the representatives' vectors are the same linear combination as the caller's coefficients with the caller's vectors. Partial: up to eight fragments, no fingerprint collisions (as C99); coefficients of bra and ket equal or different by at least 1e-8 somewhere (the tolerance of the code); rootspaces with the same numbers of electrons of each spin."
  },
  {
   "property": "C104",
   "status": "proved",
   "theorems": [
    "Verif.Props.C104_create",
    "Verif.Props.C104_destroy",
    "Verif.Props.C104_three_create",
    "Verif.Props.C104_three_destroy",
    "Verif.Props.C104_flip_up",
    "Verif.Props.C104_flip_down",
    "Verif.Props.C104_pair_create",
    "Verif.Props.C104_pair_destroy"
   ],
   "note": ""
  },
  {
   "property": "C105",
   "status": "proved",
   "theorems": [
    "Verif.Props.C105_build",
    "Verif.Props.C105_update",
    "Verif.Props.C105_history",
    "Verif.Props.C105_lookup",
    "Verif.Props.C105_describes"
   ],
   "note": ""
  },
  {
   "property": "C106",
   "status": "proved",
   "theorems": [
    "Verif.Props.C106_rotated",
    "Verif.Props.C106_unrotated",
    "Verif.Props.C106_h",
    "Verif.Props.C106_phh",
    "Verif.Props.C106_hh_same",
    "Verif.Props.C106_hh_ba",
    "Verif.Props.C106_sm",
    "Verif.Props.C106_dm1",
    "Verif.Props.C106_dm2"
   ],
   "note": ""
  },
  {
   "property": "C107",
   "status": "partial",
   "theorems": [
    "Verif.Props.C107_manifolds",
    "Verif.Props.C107_build",
    "Verif.Props.C107_update",
    "Verif.Props.C107_history_partial",
    "Verif.Props.C107_describes",
    "Verif.Props.C107_history_violated"
   ],
   "note": "Violated in full: update_ci_ does not compute the spin manifolds again, so that after vectors of one manifold are replaced independently a lookup returns the entry of another member (C107_history_violated, a doublet; the only caller in the library, the Hessian of lassis, builds its tables without multiplicities). Proved: the manifolds found are multiplets, building succeeds and is exact, and after any history lookups are exact if the rootspaces of one manifold are still states of the same multiplets."
  },
  {
   "property": "C108",
   "status": "proved",
   "theorems": [
    "Verif.Props.C108_no_coupling_lost",
    "Verif.Props.C108_overlap"
   ],
   "note": "The selection rule (a string of n ladder operators changes 2S by at most n) is proved from the algebra of the spin ladder operators for arbitrary members of multiplets; C06 gives the meaning of the test in the C code. The failed-assertion branch is shown not to occur."
  },
  {
   "property": "C109",
   "status": "partial",
   "theorems": [
    "Verif.Props.C109_manifolds_exact_partial",
    "Verif.Props.C109_as_without_manifolds",
    "Verif.Props.C109_spin_dependent_integrals_violated"
   ],
   "note": "Violated in full: the one-fragment term is scaled as if it were a scalar, so that with one-electron integrals that differ for the two spins, which the documentation allows, the elements of all members of a manifold are those of the highest projection (C109_spin_dependent_integrals_violated: number of spin-up electrons of a spin-down doublet computed as 1). Proved for integrals that are the same for both spins, up to eight fragments, after any history of table updates, assuming that Python's hash and the 64-bit fingerprints do not collide and that the manifolds still hold multiplets (C109_manifolds_exact_partial); C109_as_without_manifolds shows that the grouping gives the same matrices as evaluating every interaction."
  },
  {
   "property": "C110",
   "status": "partial",
   "theorems": [
    "Verif.Props.C110_matvec_partial",
    "Verif.Props.C110_overlap_matvec",
    "Verif.Props.C110_rotated_partial"
   ],
   "note": "Proved for up to eight fragments, arbitrary real symmetric integrals, rootspaces, local roots, trial vectors, identifications of equal fragment vectors and rotations of linearly equivalent ones (C110_matvec_partial, C110_overlap_matvec, C110_rotated_partial), assuming that neither the 64-bit fingerprints of the rows nor those of the links of a group collide. Missing: nine or more fragments; colliding fingerprints; spin multiplicities and spin manifolds (reduce_spin); the thresholds below which cached operators are dropped; the GPU branch."
  },
  {
   "property": "C111",
   "status": "partial",
   "theorems": [
    "Verif.Props.C111_model_space_partial",
    "Verif.Props.C111_hops_complete",
    "Verif.Props.C111_flips_up_partial",
    "Verif.Props.C111_flips_alone_partial",
    "Verif.Props.C111_low_spin",
    "Verif.Props.C111_flip_missing_violated",
    "Verif.Props.C111_crash_violated"
   ],
   "note": "Proved (C111_model_space_partial, C111_hops_complete, C111_flips_up_partial, C111_flips_alone_partial) for references for which every combination of available hops on disjoint pairs of fragments is possible with the total projection, which C111_low_spin shows for every reference of total projection -1/2, 0 or 1/2. Violated: C111_crash_violated (four doublets with total projection 1 and two hops that lower all multiplicities: an IndexError in the product of excitations) and C111_flip_missing_violated (two triplets with projections 1 and -1: the rootspace with the first one flipped to a singlet is left out, because the injected spin flip is filtered by its total projection before the projections are shuffled). Assumes that Python's hash does not collide on rootspaces that differ only in the record of hops."
  },
  {
   "property": "C112",
   "status": "partial",
   "theorems": [
    "Verif.Props.C112_ref_rootspaces",
    "Verif.Props.C112_sf_rootspaces",
    "Verif.Props.C112_ch_rootspaces_partial",
    "Verif.Props.C112_order_small",
    "Verif.Props.C112_ch_rootspaces_violated"
   ],
   "note": "Proved for the reference and spin-flip vectors (C112_ref_rootspaces, C112_sf_rootspaces) and, for charge hops, whenever the traversal order of a Python set of the two fragments does not depend on the order of insertion (C112_ch_rootspaces_partial), which holds for up to eight fragments (C112_order_small). C112_ch_rootspaces_violated: with nine fragments and a hop from fragment 8 to fragment 0 nothing is found, since tuple(set((8,0))) differs from tuple(set((0,8)))."
  },
  {
   "property": "C113",
   "status": "partial",
   "theorems": [
    "Verif.Props.C113_decompose",
    "Verif.Props.C113_sdm1",
    "Verif.Props.C113_core",
    "Verif.Props.C113_sdm2_partial",
    "Verif.Props.C113_sdm2_axes_violated",
    "Verif.Props.C113_trans_sdm1_partial",
    "Verif.Props.C113_lroots_overwritten_violated",
    "Verif.Props.C113_second_call_violated"
   ],
   "note": "Proved: weights (C113_decompose), the one-site density matrix (C113_sdm1, C113_core), the entries of the two-site one (C113_sdm2_partial) and the transition density matrix of one call (C113_trans_sdm1_partial). C113_sdm2_axes_violated: the two-site density matrix has the axes (root, site 1, site 1, site 2, site 2) instead of the documented (root, site 1, site 2, site 1, site 2). C113_lroots_overwritten_violated: _trans_sdm1 overwrites the caller's array of numbers of local states of the ket; C113_second_call_violated: the same call again raises an assertion error."
  },
  {
   "property": "C114",
   "status": "partial",
   "theorems": [
    "Verif.Props.C114_index",
    "Verif.Props.C114_overlap",
    "Verif.Props.C114_density_partial",
    "Verif.Props.C114_density_few_fragments",
    "Verif.Props.C114_density_violated"
   ],
   "note": "Proved: numbering (C114_index), overlap matrix (C114_overlap), and the density matrix (C114_density_partial) when Python sets of two fragments are traversed in one order (up to eight fragments) and rootspaces of equal local quantum numbers in which a fragment is the same end of a hop have hops of the same kind, which holds for up to three fragments (C114_density_few_fragments). C114_density_violated: with four doublets the products {0->2 into a singlet, 1->3 into a triplet} and {0->3 into a triplet, 1->2 into a singlet} have the same local quantum numbers, but the block between the two sets of vectors is never filled, because make_fbfdm1 combines only sets whose hops have the same kind."
  },
  {
   "property": "C115",
   "status": "partial",
   "theorems": [
    "Verif.Props.C115_one_create",
    "Verif.Props.C115_one_destroy",
    "Verif.Props.C115_three_create_partial",
    "Verif.Props.C115_three_destroy_partial",
    "Verif.Props.C115_factor",
    "Verif.Props.C115_pair_create",
    "Verif.Props.C115_pair_destroy",
    "Verif.Props.C115_h10",
    "Verif.Props.C115_h01",
    "Verif.Props.C115_h20",
    "Verif.Props.C115_h02",
    "Verif.Props.C115_h00",
    "Verif.Props.C115_factor_violated",
    "Verif.Props.C115_symmetry_violated"
   ],
   "note": "Proved for all sizes, vectors and matrix elements: contract_1he (C115_one_create, C115_one_destroy), contract_pair_op (C115_pair_create, C115_pair_destroy), contract_h00 (C115_h00), contract_h10, contract_h01, contract_h20, contract_h02. The three-half-electron operator (C115_three_create_partial, C115_three_destroy_partial) is exact for fac=0.5 and elements that are symmetric in the full-electron pair, which is what the fragment methods pass. C115_factor_violated: fac multiplies both parts and twice, so the documented default fac=1 doubles the one-half-electron part (C115_factor says what every factor gives). C115_symmetry_violated: an h3he that is not symmetric, which the documentation allows, is replaced by one of its triangles. PySCF's contract_1e and contract_2e (direct_spin1, direct_uhf) are assumed to give the documented contraction for symmetric elements."
  },
  {
   "property": "C116",
   "status": "partial",
   "theorems": [
    "Verif.Props.C116_contract",
    "Verif.Props.C116_contract_opt",
    "Verif.Props.C116_blksize",
    "Verif.Props.C116_four",
    "Verif.Props.C116_one",
    "Verif.Props.C116_hamiltonian",
    "Verif.Props.C116_hamiltonian_four",
    "Verif.Props.C116_energy",
    "Verif.Props.C116_energy_opt",
    "Verif.Props.C116_spin0_partial",
    "Verif.Props.C116_spin0_sym",
    "Verif.Props.C116_spin0_check",
    "Verif.Props.C116_spin0_violated",
    "Verif.Props.C116_small_violated"
   ],
   "note": "Exact for every size, link table, block size and schedule when each nonzero coefficient exceeds the threshold of the test for empty tiles (1e-14 in absolute value of its real or imaginary part). Partial because the code fails the full statement: vectors whose coefficients are all below that size are contracted to zero (C116_small_violated), and the spin0 routine does not test the symmetry of the vector and returns a wrong, symmetric result for others (C116_spin0_violated, 'TODO: Symmetry check' in the source)."
  },
  {
   "property": "C117",
   "status": "partial",
   "theorems": [
    "Verif.Props.C117_rdm1s",
    "Verif.Props.C117_rdm1",
    "Verif.Props.C117_rdm12s",
    "Verif.Props.C117_rdm12s_raw",
    "Verif.Props.C117_rdm12",
    "Verif.Props.C117_energy",
    "Verif.Props.C117_consistent",
    "Verif.Props.C117_rdm1_py",
    "Verif.Props.C117_rdm12s_py_partial",
    "Verif.Props.C117_rdm12_py_agrees",
    "Verif.Props.C117_rdm12s_py_violated",
    "Verif.Props.C117_small_violated"
   ],
   "note": "The C routines are exact for every size, link table and schedule when the square of each nonzero coefficient exceeds 1e-28 (make_rdm1s and make_rdm1 without this condition), and the python routines for vectors of norm one. Partial because the code fails the full statement: make_rdm12s_py divides the caller's vector by its norm in place and returns the matrices of the normalized vector, unlike the C version (C117_rdm12s_py_violated), and rows with small coefficients are dropped (C117_small_violated). The branch PARTICLESYM of the C driver, which no caller selects, is not modelled."
  },
  {
   "property": "C118",
   "status": "proved",
   "theorems": [
    "Verif.Props.C118_h1",
    "Verif.Props.C118_core",
    "Verif.Props.C118_h2",
    "Verif.Props.C118_h2_symm",
    "Verif.Props.C118_rdm1s",
    "Verif.Props.C118_rdm1",
    "Verif.Props.C118_trace",
    "Verif.Props.C118_electrons"
   ],
   "note": "The phases enter only through their unitarity; get_veff, ao2mo_7d and kconserv are external and enter through the stated symmetries. Observed: k_phase is the identity, so the 'Wannier' orbitals of k2R.py are Bloch orbitals of the supercell; the results above hold for these."
  },
  {
   "property": "C119",
   "status": "partial",
   "theorems": [
    "Verif.Props.C119_fixed",
    "Verif.Props.C119_orthonormal",
    "Verif.Props.C119_fock",
    "Verif.Props.C119_hamiltonian",
    "Verif.Props.C119_caller_partial",
    "Verif.Props.C119_caller_violated"
   ],
   "note": "Partial: the caller's orbitals are protected only if they are one ndarray. PySCF's k-point mean-field objects keep a list of arrays, list.copy() is shallow, and the assignment mo_coeff1[k][:,idx] = ... overwrites the orbitals of the mean-field object (C119_caller_violated, for every eigensolver)."
  },
  {
   "property": "C120",
   "status": "partial",
   "theorems": [
    "Verif.Props.C120_contract_ss",
    "Verif.Props.C120_spin_square",
    "Verif.Props.C120_multiplicity",
    "Verif.Props.C120_eig_partial",
    "Verif.Props.C120_eig_violated",
    "Verif.Props.C120_precond",
    "Verif.Props.C120_guess",
    "Verif.Props.C120_guess_violated"
   ],
   "note": "Partial: the Hermiticity check takes np.max of complex numbers, which compares real parts, so an imaginary symmetric part of any size passes and eigh diagonalizes another matrix (C120_eig_violated); the singlet solver's get_init_guess uses the dtype of a list for several roots and always fails (C120_guess_violated)."
  },
  {
   "property": "C121",
   "status": "partial",
   "theorems": [
    "Verif.Props.C121_state_energy",
    "Verif.Props.C121_energy",
    "Verif.Props.C121_average",
    "Verif.Props.C121_fragment",
    "Verif.Props.C121_slice",
    "Verif.Props.C121_rdm1s",
    "Verif.Props.C121_veff_default_partial",
    "Verif.Props.C121_veff_default_violated"
   ],
   "note": "Partial: get_veff () without a density matrix calls make_rdm1 (include_core=True), but make_rdm1s already adds the core density and passes include_core on, so the core electrons are counted twice (C121_veff_default_violated); without core orbitals it is right (C121_veff_default_partial). The energies, the average, the effective Hamiltonians of the fragments, the integral slices and the density matrices are proved in full. The weighted sum needs weights of sum one and solvers whose weights are those of the LASSCF object (make_casdm2_sub reads the solvers' weights)."
  },
  {
   "property": "C122",
   "status": "partial",
   "theorems": [
    "Verif.Props.C122_infer",
    "Verif.Props.C122_contract1_partial",
    "Verif.Props.C122_contract1_error_partial",
    "Verif.Props.C122_h2eff_partial",
    "Verif.Props.C122_fast_veffa",
    "Verif.Props.C122_shape_violated"
   ],
   "note": "Partial: the C code computes the position of an orbital's row in 32-bit unsigned arithmetic, so for results of more than 2^32 elements rows of different orbitals are added up in the same place, and an array in column-major order, which the constructor accepts, is not contracted because naux_slow calls a function that does not exist (C122_shape_violated). For arrays whose positions are representable, every schedule and block division gives the contracted vectors up to the dropped pairs (C122_contract1_partial, C122_contract1_error_partial) and, if no small non-vanishing pair is dropped, the packed integrals (C122_h2eff_partial). The inferred number of orbitals and the potential of the active electrons are proved in full."
  },
  {
   "property": "C123",
   "status": "partial",
   "theorems": [
    "Verif.Props.C123_none",
    "Verif.Props.C123_enough",
    "Verif.Props.C123_stored_partial",
    "Verif.Props.C123_ignored",
    "Verif.Props.C123_few_violated"
   ],
   "note": "Partial: if fewer vectors are stored than there are roots, Q.T @ ci0g multiplies an array of three dimensions, so that the call raises a ValueError for all vectors unless the number of roots is the number of alpha strings; if it is, determinants instead of roots are mixed and the appended vectors are not orthogonal to the stored ones, whichever QR factorization is returned; and size % ndet[0]*ndet[1] tests divisibility by the number of alpha strings only, so that stored arrays of another dimension can make reshape fail (C123_few_violated). If the call returns, it returns as many vectors as there are roots, the stored ones first (C123_stored_partial). The cases without stored vectors, with enough of them and with sizes that are not a multiple of the number of alpha strings are proved in full."
  },
  {
   "property": "C124",
   "status": "proved",
   "theorems": [
    "Verif.Props.C124_canonical",
    "Verif.Props.C124_h2eff"
   ],
   "note": "Proved for real orbitals without point-group symmetry (orbsym is None). The diagonalization, np.argsort and the rotation of CI vectors are parameters; the first two enter by what they promise for every symmetric matrix and every list (instances of both are constructed). An empty active space, for which np.amax raises, is outside of the model."
  },
  {
   "property": "C125",
   "status": "partial",
   "theorems": [
    "Verif.Props.C125_two_equal_partial",
    "Verif.Props.C125_division_violated"
   ],
   "note": "Partial: _get_minmax_occs takes what the other fragments need as the upper limit of a fragment (and subtracts the spins of the others from its electrons), which is right only for two equal fragments (C125_two_equal_partial, with overlaps strictly between 0 and 1 and fragments defined by enough orbitals). C125_division_violated: three equal closed-shell fragments receive 4, 2 and 0 electrons, a triplet and a singlet of two electrons each receive 3 and 1, and in a minimal basis _svd raises an IndexError for all overlaps, since it counts rows (k1 = len (mo_lvecs[:,:k])) instead of columns."
  },
  {
   "property": "C126",
   "status": "partial",
   "theorems": [
    "Verif.Props.C126_complete_partial",
    "Verif.Props.C126_exact_partial",
    "Verif.Props.C126_table_violated"
   ],
   "note": "Partial: no coupling is missing if there are no singlets (C126_complete_partial), and nothing else is contained if all subunits but the first are doublets and a coupling exists (C126_exact_partial). C126_table_violated: find_lowerable_nodes does not test the lower limits |S - s| with s > S, so that two quartets after a doublet give a path through spin zero; a singlet blocks the lowering of its neighbours one at a time, so that a coupling of [2,2,1,2,2] is missing; a total spin too low to be reached is not rejected."
  },
  {
   "property": "C127",
   "status": "partial",
   "theorems": [
    "Verif.Props.C127_vector_partial",
    "Verif.Props.C127_integral_partial",
    "Verif.Props.C127_strings_violated"
   ],
   "note": "Partial: proved for doubled quantum numbers, the default (C127_vector_partial: strings, coefficients and agreement with cg_prod), and for integral spins with fac=1 (C127_integral_partial: strings). C127_strings_violated: with fac=1 half-integral projections are floored, so that (1/2,-1/2) is returned as (0,-1); cg_prod_vec does not test the parity of the total projection as cg_prod does, and returns half-integral projections of triplets."
  },
  {
   "property": "C128",
   "status": "partial",
   "theorems": [
    "Verif.Props.C128_largest_partial",
    "Verif.Props.C128_schmidt_partial",
    "Verif.Props.C128_gradorbs_partial",
    "Verif.Props.C128_gradorbs_violated"
   ],
   "note": "Partial: everything is proved up to and including the Schmidt decomposition (C128_schmidt_partial); when gradient orbitals are added, orthonormality and the space are preserved, and no orbital left in the environment has a larger gradient than one added, if there are no more inactive and no more external environment orbitals than fragment orbitals (C128_gradorbs_partial, C128_largest_partial). C128_gradorbs_violated: _ia2x_gradorbs sorts the columns of the inactive and external environment by the singular values of both decompositions put together, which are fewer than the columns if there are more environment than fragment orbitals; the external ones are then taken from the wrong columns and the rest is dropped, so that the only orbital with a gradient is lost."
  },
  {
   "property": "C129",
   "status": "partial",
   "theorems": [
    "Verif.Props.C129_fallback_partial",
    "Verif.Props.C129_shapes_violated"
   ],
   "note": "Partial: if the singular values below the threshold are zero and the second decomposition succeeds, the result is a singular value decomposition with square orthogonal matrices, for any eigenvectors of degenerate singular values (C129_fallback_partial). C129_shapes_violated: with full_matrices=False, u and v are truncated after vH was made from v, so vH has as many rows as the matrix has columns, instead of the smaller dimension, if the matrix has more columns than rows."
  },
  {
   "property": "C130",
   "status": "partial",
   "theorems": [
    "Verif.Props.C130_hermitian",
    "Verif.Props.C130_atomic",
    "Verif.Props.C130_one_atom_violated"
   ],
   "note": "Partial: integrals are Hermitian in both cases (C130_hermitian) and the approximation is as stated (C130_atomic). C130_one_atom_violated: compute_hso with amfi=False uses the one-electron integrals int1e_prinvxp of the origin of coordinates as they are, without the charge of any nucleus and without the minus sign, so that for one atom at the origin, where the approximation should change nothing, the one-electron part has the wrong sign and is too small by the nuclear charge; nuclei elsewhere do not contribute."
  },
  {
   "property": "C131",
   "status": "partial",
   "theorems": [
    "Verif.Props.C131_one_space_partial",
    "Verif.Props.C131_index_violated"
   ],
   "note": "Partial: proved for one bra space if the states of the last ket space come first (C131_one_space_partial). C131_index_violated: the loop over kets overwrites the number of the bra space with the first column of the ket space, so the terms of all bra spaces are added to the array whose number is the number of states before the last ket space, the other arrays receive none, and if there is no such array an error is raised. Without SI vectors; array shapes are not modelled."
  }
 ]
}