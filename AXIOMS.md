# Axioms per theorem

Output of `#print axioms` (regenerate with `tools/axioms.py` after `lake build`).

| property | theorem | axioms |
|---|---|---|
| C01 | `Verif.Props.C01_spin_shuffle_sign` | propext, Classical.choice, Quot.sound |
| C01 | `Verif.Props.C01_spin_shuffle_rejects` | none |
| C02 | `Verif.Props.C02_frag_shuffle_sign_partial` | propext, Classical.choice, Quot.sound |
| C02 | `Verif.Props.C02_frag_shuffle_sign_of_ascending` | propext, Classical.choice, Quot.sound |
| C02 | `Verif.Props.C02_frag_shuffle_violated` | propext, Classical.choice, Quot.sound |
| C03 | `Verif.Props.C03_des_shuffle_sign_of_ascending` | propext, Classical.choice, Quot.sound |
| C03 | `Verif.Props.C03_des_shuffle_sign_partial` | propext, Classical.choice, Quot.sound |
| C03 | `Verif.Props.C03_des_shuffle_rejects` | propext, Quot.sound |
| C03 | `Verif.Props.C03_des_shuffle_violated` | propext, Classical.choice, Quot.sound |
| C04 | `Verif.Props.C04_hopping_index` | propext, Quot.sound |
| C05 | `Verif.Props.C05_screening_iff_two_hops` | propext, Classical.choice, Quot.sound |
| C05 | `Verif.Props.C05_screening_symmetric` | propext, Quot.sound |
| C06 | `Verif.Props.C06_spin_screening_iff` | propext, Classical.choice, Quot.sound |
| C06 | `Verif.Props.C06_spin_screening_refines` | propext, Quot.sound |
| C06 | `Verif.Props.C06_spin_screening_symmetric` | propext, Quot.sound |
| C06 | `Verif.Props.C06_equal_smult` | propext, Quot.sound |
| C07 | `Verif.Props.C07_interaction_list` | propext, Classical.choice, Quot.sound |
| C07 | `Verif.Props.C07_interaction_list_charge` | propext, Classical.choice, Quot.sound |
| C08 | `Verif.Props.C08_fprintLT_invariant` | propext, Classical.choice, Quot.sound |
| C08 | `Verif.Props.C08_fprintLT_faithful` | propext, Classical.choice, Quot.sound |
| C08 | `Verif.Props.C08_fprint_faithful` | propext, Classical.choice, Quot.sound |
| C09 | `Verif.Props.C09_fnv_one_word` | propext, Classical.choice, Quot.sound |
| C09 | `Verif.Props.C09_fnv_collisions` | propext, Quot.sound |
| C10 | `Verif.Props.C10_classification` | propext, Classical.choice, Quot.sound |
| C10 | `Verif.Props.C10_table_classes` | propext, Quot.sound |
| C10 | `Verif.Props.C10_tril` | propext |
| C10 | `Verif.Props.C10_derived_tables` | propext, Quot.sound |
| C11 | `Verif.Props.C11_bijection` | propext, Classical.choice, Quot.sound |
| C11 | `Verif.Props.C11_stateIndex` | propext, Classical.choice, Quot.sound |
| C12 | `Verif.Props.C12_action` | propext, Classical.choice, Quot.sound |
| C12 | `Verif.Props.C12_identity` | propext, Classical.choice, Quot.sound |
| C12 | `Verif.Props.C12_compose` | propext, Classical.choice, Quot.sound |
| C12 | `Verif.Props.C12_commute` | propext, Classical.choice, Quot.sound |
| C13 | `Verif.Props.C13_unique_roots` | propext, Classical.choice, Quot.sound |
| C14 | `Verif.Props.C14_transpose_C` | propext, Classical.choice, Quot.sound |
| C14 | `Verif.Props.C14_transpose_F` | propext, Classical.choice, Quot.sound |
| C14 | `Verif.Props.C14_inverse` | propext, Classical.choice, Quot.sound |
| C14 | `Verif.Props.C14_rejects` | propext, Classical.choice, Quot.sound |
| C14 | `Verif.Props.C14_make_fragments_slow` | propext, Classical.choice, Quot.sound |
| C14 | `Verif.Props.C14_slow_fragments_roundtrip` | propext, Classical.choice, Quot.sound |
| C15 | `Verif.Props.C15_permutation` | propext, Quot.sound |
| C15 | `Verif.Props.C15_separates_spins` | propext, Classical.choice, Quot.sound |
| C16 | `Verif.Props.C16_copies` | propext, Classical.choice, Quot.sound |
| C16 | `Verif.Props.C16_equal_length_partial` | propext, Classical.choice, Quot.sound |
| C16 | `Verif.Props.C16_equal_length_violated` | propext |
| C17 | `Verif.Props.C17_tiles` | propext, Classical.choice, Quot.sound |
| C17 | `Verif.Props.C17_zero` | propext, Quot.sound |
| C18 | `Verif.Props.C18_slices` | propext, Quot.sound |
| C18 | `Verif.Props.C18_sum` | propext, Quot.sound |
| C18 | `Verif.Props.C18_weights` | propext, Quot.sound |
| C19 | `Verif.Props.C19_scatter1_partial` | propext, Classical.choice, Quot.sound |
| C19 | `Verif.Props.C19_scatter2_partial` | propext, Classical.choice, Quot.sound |
| C19 | `Verif.Props.C19_scatter2_overflow_violated` | propext, Quot.sound |
| C20 | `Verif.Props.C20_eq_meaning` | propext, Quot.sound |
| C20 | `Verif.Props.C20_equal_hash_partial` | propext, Quot.sound |
| C20 | `Verif.Props.C20_set_partial` | propext, Quot.sound |
| C20 | `Verif.Props.C20_equal_hash_violated` | propext, Quot.sound |
| C21 | `Verif.Props.C21_any_m_complete` | propext, Classical.choice, Quot.sound |
| C21 | `Verif.Props.C21_singles` | propext, Classical.choice, Quot.sound |
| C21 | `Verif.Props.C21_singles_conserve` | propext, Classical.choice, Quot.sound |
| C21 | `Verif.Props.C21_get_single` | propext, Classical.choice, Quot.sound |
| C21 | `Verif.Props.C21_any_m` | propext, Classical.choice, Quot.sound |
| C22 | `Verif.Props.C22_valid_changes` | propext, Classical.choice, Quot.sound |
| C23 | `Verif.Props.C23_table` | propext, Classical.choice, Quot.sound |
| C24 | `Verif.Props.C24_table` | propext, Classical.choice, Quot.sound |
| C24 | `Verif.Props.C24_nonempty` | propext, Classical.choice, Quot.sound |
| C25 | `Verif.Props.C25_sum_rule` | propext, Classical.choice, Quot.sound |
| C26 | `Verif.Props.C26_orthogonal` | propext, Classical.choice, Quot.sound |
| C27 | `Verif.Props.C27_windows` | propext, Quot.sound |
| C27 | `Verif.Props.C27_all_partial` | propext, Classical.choice, Quot.sound |
| C27 | `Verif.Props.C27_any_partial` | propext, Classical.choice, Quot.sound |
| C27 | `Verif.Props.C27_any_keeps` | propext, Quot.sound |
| C27 | `Verif.Props.C27_any_violated` | propext, Quot.sound |
| C27 | `Verif.Props.C27_all_violated` | propext, Classical.choice, Quot.sound |
| C28 | `Verif.Props.C28_shuffle` | propext, Classical.choice, Quot.sound |
| C28 | `Verif.Props.C28_equal_weights` | propext, Classical.choice, Quot.sound |
| C28 | `Verif.Props.C28_idempotent` | propext, Classical.choice, Quot.sound |
| C29 | `Verif.Props.C29_preferred` | propext, Classical.choice, Quot.sound |
| C29 | `Verif.Props.C29_all_singles` | propext, Classical.choice, Quot.sound |
| C29 | `Verif.Props.C29_filtered` | propext, Classical.choice, Quot.sound |
| C29 | `Verif.Props.C29_filter_violated` | propext, Classical.choice, Quot.sound |
| C30 | `Verif.Props.C30_orthogonal` | propext, Classical.choice, Quot.sound |
| C30 | `Verif.Props.C30_commute` | propext, Classical.choice, Quot.sound |
| C30 | `Verif.Props.C30_electrons` | propext, Classical.choice, Quot.sound |
| C30 | `Verif.Props.C30_flexible` | propext, Classical.choice, Quot.sound |
| C30 | `Verif.Props.C30_records_disjoint` | propext, Quot.sound |
| C31 | `Verif.Props.C31_meaning` | propext, Quot.sound |
| C31 | `Verif.Props.C31_equivalence` | propext, Quot.sound |
| C31 | `Verif.Props.C31_manifolds` | propext, Quot.sound |
| C32 | `Verif.Props.C32_keys` | propext, Classical.choice, Quot.sound |
| C32 | `Verif.Props.C32_entries` | propext, Classical.choice, Quot.sound |
| C32 | `Verif.Props.C32_norms` | propext, Classical.choice, Quot.sound |
| C32 | `Verif.Props.C32_mdown` | propext, Classical.choice, Quot.sound |
| C32 | `Verif.Props.C32_mup` | propext, Classical.choice, Quot.sound |
| C32 | `Verif.Props.C32_ladder` | propext, Classical.choice, Quot.sound |
| C33 | `Verif.Props.C33_split` | propext, Classical.choice, Quot.sound |
| C33 | `Verif.Props.C33_surjective` | propext, Classical.choice, Quot.sound |
| C33 | `Verif.Props.C33_manifolds` | propext, Classical.choice, Quot.sound |
| C34 | `Verif.Props.C34_aligned_partial` | propext, Classical.choice, Quot.sound |
| C34 | `Verif.Props.C34_aligned_violated` | propext, Classical.choice, Quot.sound |
| C34 | `Verif.Props.C34_unit_columns` | propext, Classical.choice, Quot.sound |
| C35 | `Verif.Props.C35_table` | propext, Classical.choice, Quot.sound |
| C35 | `Verif.Props.C35_roundtrip` | propext, Classical.choice, Quot.sound |
| C35 | `Verif.Props.C35_project` | propext, Classical.choice, Quot.sound |
| C35 | `Verif.Props.C35_zero` | propext, Classical.choice, Quot.sound |
| C35 | `Verif.Props.C35_weights` | propext, Classical.choice, Quot.sound |
| C36 | `Verif.Props.C36_visits` | propext, Classical.choice, Quot.sound |
| C36 | `Verif.Props.C36_disjoint` | propext, Classical.choice, Quot.sound |
| C36 | `Verif.Props.C36_schedule_rotation` | propext, Classical.choice, Quot.sound |
| C36 | `Verif.Props.C36_schedule_accumulate` | propext, Classical.choice, Quot.sound |
| C37 | `Verif.Props.C37_compose` | propext, Classical.choice, Quot.sound |
| C37 | `Verif.Props.C37_restore_partial` | propext, Classical.choice, Quot.sound |
| C37 | `Verif.Props.C37_norm_partial` | propext, Classical.choice, Quot.sound |
| C37 | `Verif.Props.C37_restore_violated` | propext |
| C38 | `Verif.Props.C38_projects` | propext, Classical.choice, Quot.sound |
| C38 | `Verif.Props.C38_idempotent` | propext, Classical.choice, Quot.sound |
| C38 | `Verif.Props.C38_interacting` | propext, Classical.choice, Quot.sound |
| C39 | `Verif.Props.C39_triangle` | propext, Quot.sound |
| C39 | `Verif.Props.C39_fullhop` | propext, Classical.choice, Quot.sound |
| C40 | `Verif.Props.C40_spin` | propext, Classical.choice, Quot.sound |
| C40 | `Verif.Props.C40_vacuum` | propext, Classical.choice, Quot.sound |
| C40 | `Verif.Props.C40_spin_involution` | propext, Classical.choice, Quot.sound |
| C40 | `Verif.Props.C40_vacuum_involution` | propext, Classical.choice, Quot.sound |
| C41 | `Verif.Props.C41_las` | propext, Classical.choice, Quot.sound |
| C41 | `Verif.Props.C41_lassi` | propext, Classical.choice, Quot.sound |
| C41 | `Verif.Props.C41_lassis` | propext, Classical.choice, Quot.sound |
| C42 | `Verif.Props.C42_las` | propext, Classical.choice, Quot.sound |
| C42 | `Verif.Props.C42_lassi_partial` | propext, Classical.choice, Quot.sound |
| C42 | `Verif.Props.C42_lassi_violated` | propext, Classical.choice, Quot.sound |
| C42 | `Verif.Props.C42_lassis_violated` | propext, Classical.choice, Quot.sound |
| C43 | `Verif.Props.C43_roundtrip_partial` | propext, Classical.choice, Quot.sound |
| C43 | `Verif.Props.C43_tuple_violated` | propext, Classical.choice, Quot.sound |
| C43 | `Verif.Props.C43_bool_violated` | propext, Classical.choice, Quot.sound |
| C44 | `Verif.Props.C44_load_violated` | propext, Classical.choice, Quot.sound |
| C44 | `Verif.Props.C44_unchanged_partial` | propext, Classical.choice, Quot.sound |
| C45 | `Verif.Props.C45_partial` | propext, Quot.sound |
| C45 | `Verif.Props.C45_violated` | none |
| C46 | `Verif.Props.C46_partial` | none |
| C46 | `Verif.Props.C46_violated` | none |
| C47 | `Verif.Props.C47_single_block_partial` | propext, Classical.choice, Quot.sound |
| C47 | `Verif.Props.C47_all_partial` | propext, Classical.choice, Quot.sound |
| C47 | `Verif.Props.C47_violated` | propext |
| C47 | `Verif.Props.C47_trivial_violated` | propext, Classical.choice, Quot.sound |
| C48 | `Verif.Props.C48_violated` | propext, Classical.choice, Quot.sound |
| C48 | `Verif.Props.C48_partial` | propext, Classical.choice, Quot.sound |
| C49 | `Verif.Props.C49_assembly` | propext, Classical.choice, Quot.sound |
| C50 | `Verif.Props.C50_restored` | propext, Quot.sound |
| C50 | `Verif.Props.C50_inside` | propext, Quot.sound |
| C51 | `Verif.Props.C51_summed` | propext, Quot.sound |
| C51 | `Verif.Props.C51_separated` | propext, Quot.sound |
| C51 | `Verif.Props.C51_consistent` | propext, Quot.sound |
| C51 | `Verif.Props.C51_formula` | propext, Classical.choice, Quot.sound |
| C52 | `Verif.Props.C52_sum` | propext, Classical.choice, Quot.sound |
| C53 | `Verif.Props.C53_weights_partial` | propext, Classical.choice, Quot.sound |
| C53 | `Verif.Props.C53_violated` | propext, Classical.choice, Quot.sound |
| C54 | `Verif.Props.C54_projected` | propext, Classical.choice, Quot.sound |
| C54 | `Verif.Props.C54_current` | propext, Classical.choice, Quot.sound |
| C55 | `Verif.Props.C55_one_fragment` | propext, Quot.sound |
| C55 | `Verif.Props.C55_fair` | propext, Classical.choice, Quot.sound |
| C56 | `Verif.Props.C56_history` | propext, Classical.choice, Quot.sound |
| C56 | `Verif.Props.C56_orbitals` | propext, Classical.choice, Quot.sound |
| C57 | `Verif.Props.C57_roundtrip` | propext, Classical.choice, Quot.sound |
| C57 | `Verif.Props.C57_entries` | propext, Classical.choice, Quot.sound |
| C58 | `Verif.Props.C58_owner` | propext, Classical.choice, Quot.sound |
| C58 | `Verif.Props.C58_unowned` | propext, Classical.choice, Quot.sound |
| C58 | `Verif.Props.C58_veff` | propext, Classical.choice, Quot.sound |
| C58 | `Verif.Props.C58_dm1s_partial` | propext, Classical.choice, Quot.sound |
| C58 | `Verif.Props.C58_dm1s_violated` | propext, Classical.choice, Quot.sound |
| C59 | `Verif.Props.C59_selection` | propext, Classical.choice, Quot.sound |
| C60 | `Verif.Props.C60_length_partial` | propext, Classical.choice, Quot.sound |
| C60 | `Verif.Props.C60_roundtrip_partial` | propext, Classical.choice, Quot.sound |
| C60 | `Verif.Props.C60_length_violated` | propext, Classical.choice, Quot.sound |
| C60 | `Verif.Props.C60_roundtrip_violated` | propext, Classical.choice, Quot.sound |
| C61 | `Verif.Props.C61_carry` | propext, Classical.choice, Quot.sound |
| C61 | `Verif.Props.C61_ambiguous` | propext, Classical.choice, Quot.sound |
| C61 | `Verif.Props.C61_exactly_one` | propext, Classical.choice, Quot.sound |
| C61 | `Verif.Props.C61_info` | propext, Quot.sound |
| C61 | `Verif.Props.C61_info_wrong_parity` | propext, Quot.sound |
| C61 | `Verif.Props.C61_defaults` | propext, Quot.sound |
| C62 | `Verif.Props.C62_exact` | propext, Classical.choice, Quot.sound |
| C63 | `Verif.Props.C63_recognizes` | propext, Classical.choice, Quot.sound |
| C63 | `Verif.Props.C63_describes` | propext, Classical.choice, Quot.sound |
| C63 | `Verif.Props.C63_describes_none` | propext, Classical.choice, Quot.sound |
| C63 | `Verif.Props.C63_key_injective` | propext, Classical.choice, Quot.sound |
| C63 | `Verif.Props.C63_possible` | propext, Classical.choice, Quot.sound |
| C64 | `Verif.Props.C64_raw_blocks` | propext, Classical.choice, Quot.sound |
| C64 | `Verif.Props.C64_raw_cover` | propext, Classical.choice, Quot.sound |
| C65 | `Verif.Props.C65_adjoint` | propext, Classical.choice, Quot.sound |
| C65 | `Verif.Props.C65_coupled_adjoint` | propext, Classical.choice, Quot.sound |
| C65 | `Verif.Props.C65_inverse` | propext, Classical.choice, Quot.sound |
| C66 | `Verif.Props.C66_operator` | propext, Classical.choice, Quot.sound |
| C66 | `Verif.Props.C66_exponential_partial` | propext, Classical.choice, Quot.sound |
| C67 | `Verif.Props.C67_derivative_projected` | propext, Classical.choice, Quot.sound |
| C67 | `Verif.Props.C67_derivative_violated` | propext, Classical.choice, Quot.sound |
| C68 | `Verif.Props.C68_spin` | propext, Classical.choice, Quot.sound |
| C69 | `Verif.Props.C69_sane` | propext, Classical.choice, Quot.sound |
| C69 | `Verif.Props.C69_no_duplicates` | propext, Classical.choice, Quot.sound |
| C69 | `Verif.Props.C69_restore` | propext, Classical.choice, Quot.sound |
| C69 | `Verif.Props.C69_unitary` | propext, Classical.choice, Quot.sound |
| C69 | `Verif.Props.C69_dtype_violated` | propext, Classical.choice, Quot.sound |
| C70 | `Verif.Props.C70_derivative` | propext, Classical.choice, Quot.sound |
| C71 | `Verif.Props.C71_forward` | propext, Classical.choice, Quot.sound |
| C71 | `Verif.Props.C71_transpose_violated` | propext, Classical.choice, Quot.sound |
| C72 | `Verif.Props.C72_gradient` | propext, Classical.choice, Quot.sound |
| C73 | `Verif.Props.C73_operator` | propext, Classical.choice, Quot.sound |
| C73 | `Verif.Props.C73_symmetric` | propext, Classical.choice, Quot.sound |
| C74 | `Verif.Props.C74_number_operator` | propext, Classical.choice, Quot.sound |
| C75 | `Verif.Props.C75_spin_shuffle` | propext, Classical.choice, Quot.sound |
| C76 | `Verif.Props.C76_frag_shuffle` | propext, Classical.choice, Quot.sound |
| C77 | `Verif.Props.C77_onv_str` | propext, Quot.sound |
| C78 | `Verif.Props.C78_sticky_violated` | none |
| C78 | `Verif.Props.C78_first_call_partial` | none |
| C79 | `Verif.Props.C79_formula` | propext, Classical.choice, Quot.sound |
| C79 | `Verif.Props.C79_cumulant` | propext, Classical.choice, Quot.sound |
| C80 | `Verif.Props.C80_product_cumulant` | propext, Classical.choice, Quot.sound |
| C81 | `Verif.Props.C81_completes` | propext, Classical.choice, Quot.sound |
| C81 | `Verif.Props.C81_default_limit_partial` | propext, Classical.choice, Quot.sound |
| C81 | `Verif.Props.C81_small_limit_violated` | propext, Classical.choice, Quot.sound |
| C82 | `Verif.Props.C82_average` | propext, Classical.choice, Quot.sound |
| C82 | `Verif.Props.C82_state` | propext, Classical.choice, Quot.sound |
| C83 | `Verif.Props.C83_same_spin` | propext, Classical.choice, Quot.sound |
| C83 | `Verif.Props.C83_opposite_spin_partial` | propext, Classical.choice, Quot.sound |
| C83 | `Verif.Props.C83_opposite_spin_violated` | propext, Classical.choice, Quot.sound |
| C84 | `Verif.Props.C84_spin_summed_partial` | propext, Classical.choice, Quot.sound |
| C84 | `Verif.Props.C84_spin_violated` | propext, Classical.choice, Quot.sound |
| C84 | `Verif.Props.C84_weights_violated` | propext, Classical.choice, Quot.sound |
| C85 | `Verif.Props.C85_same_spin_partial` | propext, Classical.choice, Quot.sound |
| C85 | `Verif.Props.C85_abb_partial` | propext, Classical.choice, Quot.sound |
| C85 | `Verif.Props.C85_aab_partial` | propext, Classical.choice, Quot.sound |
| C85 | `Verif.Props.C85_aab_violated` | propext, Classical.choice, Quot.sound |
| C86 | `Verif.Props.C86_mask` | propext, Classical.choice, Quot.sound |
| C86 | `Verif.Props.C86_once` | propext, Classical.choice, Quot.sound |
| C86 | `Verif.Props.C86_lasscf` | propext, Classical.choice, Quot.sound |
| C86 | `Verif.Props.C86_laspscf` | propext, Classical.choice, Quot.sound |
| C87 | `Verif.Props.C87_pack_unpack` | propext, Classical.choice, Quot.sound |
| C87 | `Verif.Props.C87_unpack` | propext, Classical.choice, Quot.sound |
| C87 | `Verif.Props.C87_unpack_pack` | propext, Quot.sound |
| C88 | `Verif.Props.C88_identify_partial` | propext, Classical.choice, Quot.sound |
| C88 | `Verif.Props.C88_frozen_violated` | propext, Quot.sound |
| C89 | `Verif.Props.C89_trust_partial` | propext, Classical.choice, Quot.sound |
| C89 | `Verif.Props.C89_trust_violated` | propext, Classical.choice, Quot.sound |
| C90 | `Verif.Props.C90_first_lower` | propext, Quot.sound |
| C90 | `Verif.Props.C90_energy_partial` | propext, Classical.choice, Quot.sound |
| C90 | `Verif.Props.C90_energy_violated` | propext, Classical.choice, Quot.sound |
| C91 | `Verif.Props.C91_converged` | propext, Classical.choice, Quot.sound |
| C91 | `Verif.Props.C91_lasscf` | propext, Classical.choice, Quot.sound |
| C92 | `Verif.Props.C92_normalized` | propext, Classical.choice, Quot.sound |
| C92 | `Verif.Props.C92_frozen` | propext, Classical.choice, Quot.sound |
| C93 | `Verif.Props.C93_coefficients` | propext, Classical.choice, Quot.sound |
| C94 | `Verif.Props.C94_overlap` | propext, Classical.choice, Quot.sound |
| C94 | `Verif.Props.C94_skip` | propext, Classical.choice, Quot.sound |
| C95 | `Verif.Props.C95_overlap_matrix` | propext, Classical.choice, Quot.sound |
| C95 | `Verif.Props.C95_filter_exact` | propext, Classical.choice, Quot.sound |
| C96 | `Verif.Props.C96_sectors_covered` | propext, Quot.sound |
| C96 | `Verif.Props.C96_coefficients` | propext, Classical.choice, Quot.sound |
| C96 | `Verif.Props.C96_roundtrip` | propext, Classical.choice, Quot.sound |
| C96 | `Verif.Props.C96_scalar_product` | propext, Classical.choice, Quot.sound |
| C97 | `Verif.Props.C97_constant_partial` | propext |
| C97 | `Verif.Props.C97_constant_violated` | propext |
| C97 | `Verif.Props.C97_bra_sectors_partial` | propext, Quot.sound |
| C97 | `Verif.Props.C97_bra_sectors_violated` | propext, Quot.sound |
| C97 | `Verif.Props.C97_block_shape_partial` | propext, Classical.choice, Quot.sound |
| C97 | `Verif.Props.C97_block_shape_violated` | propext, Classical.choice, Quot.sound |
| C97 | `Verif.Props.C97_memory_partial` | propext, Quot.sound |
| C97 | `Verif.Props.C97_memory_violated` | propext, Quot.sound |
| C98 | `Verif.Props.C98_pair_exact_partial` | propext, Classical.choice, Quot.sound |
| C98 | `Verif.Props.C98_nine_fragments_violated` | propext, Classical.choice, Quot.sound |
| C99 | `Verif.Props.C99_kernel_exact_partial` | propext, Classical.choice, Quot.sound |
| C99 | `Verif.Props.C99_rotated_partial` | propext, Classical.choice, Quot.sound |
| C100 | `Verif.Props.C100_ham_s2_exact_partial` | propext, Classical.choice, Quot.sound |
| C100 | `Verif.Props.C100_rotated_partial` | propext, Classical.choice, Quot.sound |
| C101 | `Verif.Props.C101_overlap` | propext, Classical.choice, Quot.sound |
| C102 | `Verif.Props.C102_linequiv_loop` | propext, Classical.choice, Quot.sound |
| C103 | `Verif.Props.C103_roots_trans_rdm12s_partial` | propext, Classical.choice, Quot.sound |
| C103 | `Verif.Props.C103_roots_make_rdm12s_partial` | propext, Classical.choice, Quot.sound |
| C104 | `Verif.Props.C104_create` | propext, Classical.choice, Quot.sound |
| C104 | `Verif.Props.C104_destroy` | propext, Classical.choice, Quot.sound |
| C104 | `Verif.Props.C104_three_create` | propext, Classical.choice, Quot.sound |
| C104 | `Verif.Props.C104_three_destroy` | propext, Classical.choice, Quot.sound |
| C104 | `Verif.Props.C104_flip_up` | propext, Classical.choice, Quot.sound |
| C104 | `Verif.Props.C104_flip_down` | propext, Classical.choice, Quot.sound |
| C104 | `Verif.Props.C104_pair_create` | propext, Classical.choice, Quot.sound |
| C104 | `Verif.Props.C104_pair_destroy` | propext, Classical.choice, Quot.sound |
| C105 | `Verif.Props.C105_build` | propext, Classical.choice, Quot.sound |
| C105 | `Verif.Props.C105_update` | propext, Classical.choice, Quot.sound |
| C105 | `Verif.Props.C105_history` | propext, Classical.choice, Quot.sound |
| C105 | `Verif.Props.C105_lookup` | propext, Classical.choice, Quot.sound |
| C105 | `Verif.Props.C105_describes` | propext, Classical.choice, Quot.sound |
| C106 | `Verif.Props.C106_rotated` | propext, Classical.choice, Quot.sound |
| C106 | `Verif.Props.C106_unrotated` | propext, Classical.choice, Quot.sound |
| C106 | `Verif.Props.C106_h` | propext, Classical.choice, Quot.sound |
| C106 | `Verif.Props.C106_phh` | propext, Classical.choice, Quot.sound |
| C106 | `Verif.Props.C106_hh_same` | propext, Classical.choice, Quot.sound |
| C106 | `Verif.Props.C106_hh_ba` | propext, Classical.choice, Quot.sound |
| C106 | `Verif.Props.C106_sm` | propext, Classical.choice, Quot.sound |
| C106 | `Verif.Props.C106_dm1` | propext, Classical.choice, Quot.sound |
| C106 | `Verif.Props.C106_dm2` | propext, Classical.choice, Quot.sound |
| C107 | `Verif.Props.C107_manifolds` | propext, Classical.choice, Quot.sound |
| C107 | `Verif.Props.C107_build` | propext, Classical.choice, Quot.sound |
| C107 | `Verif.Props.C107_update` | propext, Classical.choice, Quot.sound |
| C107 | `Verif.Props.C107_history_partial` | propext, Classical.choice, Quot.sound |
| C107 | `Verif.Props.C107_describes` | propext, Classical.choice, Quot.sound |
| C107 | `Verif.Props.C107_history_violated` | propext, Classical.choice, Quot.sound |
| C108 | `Verif.Props.C108_no_coupling_lost` | propext, Classical.choice, Quot.sound |
| C108 | `Verif.Props.C108_overlap` | propext, Classical.choice, Quot.sound |
| C109 | `Verif.Props.C109_manifolds_exact_partial` | propext, Classical.choice, Quot.sound |
| C109 | `Verif.Props.C109_as_without_manifolds` | propext, Classical.choice, Quot.sound |
| C109 | `Verif.Props.C109_spin_dependent_integrals_violated` | propext, Classical.choice, Quot.sound |
| C110 | `Verif.Props.C110_matvec_partial` | propext, Classical.choice, Quot.sound |
| C110 | `Verif.Props.C110_overlap_matvec` | propext, Classical.choice, Quot.sound |
| C110 | `Verif.Props.C110_rotated_partial` | propext, Classical.choice, Quot.sound |
| C111 | `Verif.Props.C111_model_space_partial` | propext, Classical.choice, Quot.sound |
| C111 | `Verif.Props.C111_hops_complete` | propext, Classical.choice, Quot.sound |
| C111 | `Verif.Props.C111_flips_up_partial` | propext, Classical.choice, Quot.sound |
| C111 | `Verif.Props.C111_flips_alone_partial` | propext, Classical.choice, Quot.sound |
| C111 | `Verif.Props.C111_low_spin` | propext, Classical.choice, Quot.sound |
| C111 | `Verif.Props.C111_flip_missing_violated` | propext, Classical.choice, Quot.sound |
| C111 | `Verif.Props.C111_crash_violated` | propext, Classical.choice, Quot.sound |
| C112 | `Verif.Props.C112_ref_rootspaces` | propext, Classical.choice, Quot.sound |
| C112 | `Verif.Props.C112_sf_rootspaces` | propext, Classical.choice, Quot.sound |
| C112 | `Verif.Props.C112_ch_rootspaces_partial` | propext, Classical.choice, Quot.sound |
| C112 | `Verif.Props.C112_order_small` | propext, Classical.choice, Quot.sound |
| C112 | `Verif.Props.C112_ch_rootspaces_violated` | propext, Classical.choice, Quot.sound |
| C113 | `Verif.Props.C113_decompose` | propext, Classical.choice, Quot.sound |
| C113 | `Verif.Props.C113_sdm1` | propext, Classical.choice, Quot.sound |
| C113 | `Verif.Props.C113_core` | propext, Classical.choice, Quot.sound |
| C113 | `Verif.Props.C113_sdm2_partial` | propext, Classical.choice, Quot.sound |
| C113 | `Verif.Props.C113_sdm2_axes_violated` | propext, Classical.choice, Quot.sound |
| C113 | `Verif.Props.C113_trans_sdm1_partial` | propext, Classical.choice, Quot.sound |
| C113 | `Verif.Props.C113_lroots_overwritten_violated` | propext, Classical.choice, Quot.sound |
| C113 | `Verif.Props.C113_second_call_violated` | propext, Classical.choice, Quot.sound |
| C114 | `Verif.Props.C114_index` | propext, Classical.choice, Quot.sound |
| C114 | `Verif.Props.C114_overlap` | propext, Classical.choice, Quot.sound |
| C114 | `Verif.Props.C114_density_partial` | propext, Classical.choice, Quot.sound |
| C114 | `Verif.Props.C114_density_few_fragments` | propext, Classical.choice, Quot.sound |
| C114 | `Verif.Props.C114_density_violated` | propext, Classical.choice, Quot.sound |
| C115 | `Verif.Props.C115_one_create` | propext, Classical.choice, Quot.sound |
| C115 | `Verif.Props.C115_one_destroy` | propext, Classical.choice, Quot.sound |
| C115 | `Verif.Props.C115_three_create_partial` | propext, Classical.choice, Quot.sound |
| C115 | `Verif.Props.C115_three_destroy_partial` | propext, Classical.choice, Quot.sound |
| C115 | `Verif.Props.C115_factor` | propext, Classical.choice, Quot.sound |
| C115 | `Verif.Props.C115_pair_create` | propext, Classical.choice, Quot.sound |
| C115 | `Verif.Props.C115_pair_destroy` | propext, Classical.choice, Quot.sound |
| C115 | `Verif.Props.C115_h10` | propext, Classical.choice, Quot.sound |
| C115 | `Verif.Props.C115_h01` | propext, Classical.choice, Quot.sound |
| C115 | `Verif.Props.C115_h20` | propext, Classical.choice, Quot.sound |
| C115 | `Verif.Props.C115_h02` | propext, Classical.choice, Quot.sound |
| C115 | `Verif.Props.C115_h00` | propext, Classical.choice, Quot.sound |
| C115 | `Verif.Props.C115_factor_violated` | propext, Classical.choice, Quot.sound |
| C115 | `Verif.Props.C115_symmetry_violated` | propext, Classical.choice, Quot.sound |
| C116 | `Verif.Props.C116_contract` | propext, Classical.choice, Quot.sound |
| C116 | `Verif.Props.C116_contract_opt` | propext, Classical.choice, Quot.sound |
| C116 | `Verif.Props.C116_blksize` | propext, Classical.choice, Quot.sound |
| C116 | `Verif.Props.C116_four` | propext, Classical.choice, Quot.sound |
| C116 | `Verif.Props.C116_one` | propext, Classical.choice, Quot.sound |
| C116 | `Verif.Props.C116_hamiltonian` | propext, Classical.choice, Quot.sound |
| C116 | `Verif.Props.C116_hamiltonian_four` | propext, Classical.choice, Quot.sound |
| C116 | `Verif.Props.C116_energy` | propext, Classical.choice, Quot.sound |
| C116 | `Verif.Props.C116_energy_opt` | propext, Classical.choice, Quot.sound |
| C116 | `Verif.Props.C116_spin0_partial` | propext, Classical.choice, Quot.sound |
| C116 | `Verif.Props.C116_spin0_sym` | propext, Classical.choice, Quot.sound |
| C116 | `Verif.Props.C116_spin0_check` | propext, Classical.choice, Quot.sound |
| C116 | `Verif.Props.C116_spin0_violated` | propext, Classical.choice, Quot.sound |
| C116 | `Verif.Props.C116_small_violated` | propext, Classical.choice, Quot.sound |
| C117 | `Verif.Props.C117_rdm1s` | propext, Classical.choice, Quot.sound |
| C117 | `Verif.Props.C117_rdm1` | propext, Classical.choice, Quot.sound |
| C117 | `Verif.Props.C117_rdm12s` | propext, Classical.choice, Quot.sound |
| C117 | `Verif.Props.C117_rdm12s_raw` | propext, Classical.choice, Quot.sound |
| C117 | `Verif.Props.C117_rdm12` | propext, Classical.choice, Quot.sound |
| C117 | `Verif.Props.C117_energy` | propext, Classical.choice, Quot.sound |
| C117 | `Verif.Props.C117_consistent` | propext, Classical.choice, Quot.sound |
| C117 | `Verif.Props.C117_rdm1_py` | propext, Classical.choice, Quot.sound |
| C117 | `Verif.Props.C117_rdm12s_py_partial` | propext, Classical.choice, Quot.sound |
| C117 | `Verif.Props.C117_rdm12_py_agrees` | propext, Classical.choice, Quot.sound |
| C117 | `Verif.Props.C117_rdm12s_py_violated` | propext, Classical.choice, Quot.sound |
| C117 | `Verif.Props.C117_small_violated` | propext, Classical.choice, Quot.sound |
| C118 | `Verif.Props.C118_h1` | propext, Classical.choice, Quot.sound |
| C118 | `Verif.Props.C118_core` | propext, Classical.choice, Quot.sound |
| C118 | `Verif.Props.C118_h2` | propext, Classical.choice, Quot.sound |
| C118 | `Verif.Props.C118_h2_symm` | propext, Classical.choice, Quot.sound |
| C118 | `Verif.Props.C118_rdm1s` | propext, Classical.choice, Quot.sound |
| C118 | `Verif.Props.C118_rdm1` | propext, Classical.choice, Quot.sound |
| C118 | `Verif.Props.C118_trace` | propext, Classical.choice, Quot.sound |
| C118 | `Verif.Props.C118_electrons` | propext, Classical.choice, Quot.sound |
| C119 | `Verif.Props.C119_fixed` | propext, Classical.choice, Quot.sound |
| C119 | `Verif.Props.C119_orthonormal` | propext, Classical.choice, Quot.sound |
| C119 | `Verif.Props.C119_fock` | propext, Classical.choice, Quot.sound |
| C119 | `Verif.Props.C119_hamiltonian` | propext, Classical.choice, Quot.sound |
| C119 | `Verif.Props.C119_caller_partial` | propext, Classical.choice, Quot.sound |
| C119 | `Verif.Props.C119_caller_violated` | propext, Classical.choice, Quot.sound |
| C120 | `Verif.Props.C120_contract_ss` | propext, Classical.choice, Quot.sound |
| C120 | `Verif.Props.C120_spin_square` | propext, Classical.choice, Quot.sound |
| C120 | `Verif.Props.C120_multiplicity` | propext, Classical.choice, Quot.sound |
| C120 | `Verif.Props.C120_eig_partial` | propext, Classical.choice, Quot.sound |
| C120 | `Verif.Props.C120_eig_violated` | propext, Classical.choice, Quot.sound |
| C120 | `Verif.Props.C120_precond` | propext, Classical.choice, Quot.sound |
| C120 | `Verif.Props.C120_guess` | propext, Classical.choice, Quot.sound |
| C120 | `Verif.Props.C120_guess_violated` | propext, Classical.choice, Quot.sound |
| C121 | `Verif.Props.C121_state_energy` | propext, Classical.choice, Quot.sound |
| C121 | `Verif.Props.C121_energy` | propext, Classical.choice, Quot.sound |
| C121 | `Verif.Props.C121_average` | propext, Classical.choice, Quot.sound |
| C121 | `Verif.Props.C121_fragment` | propext, Classical.choice, Quot.sound |
| C121 | `Verif.Props.C121_slice` | propext, Classical.choice, Quot.sound |
| C121 | `Verif.Props.C121_rdm1s` | propext, Classical.choice, Quot.sound |
| C121 | `Verif.Props.C121_veff_default_partial` | propext, Classical.choice, Quot.sound |
| C121 | `Verif.Props.C121_veff_default_violated` | propext, Classical.choice, Quot.sound |
| C122 | `Verif.Props.C122_infer` | propext, Classical.choice, Quot.sound |
| C122 | `Verif.Props.C122_contract1_partial` | propext, Classical.choice, Quot.sound |
| C122 | `Verif.Props.C122_contract1_error_partial` | propext, Classical.choice, Quot.sound |
| C122 | `Verif.Props.C122_h2eff_partial` | propext, Classical.choice, Quot.sound |
| C122 | `Verif.Props.C122_fast_veffa` | propext, Classical.choice, Quot.sound |
| C122 | `Verif.Props.C122_shape_violated` | propext, Classical.choice, Quot.sound |
| C123 | `Verif.Props.C123_none` | propext, Classical.choice, Quot.sound |
| C123 | `Verif.Props.C123_enough` | propext, Classical.choice, Quot.sound |
| C123 | `Verif.Props.C123_stored_partial` | propext, Classical.choice, Quot.sound |
| C123 | `Verif.Props.C123_ignored` | propext, Classical.choice, Quot.sound |
| C123 | `Verif.Props.C123_few_violated` | propext, Classical.choice, Quot.sound |
| C124 | `Verif.Props.C124_canonical` | propext, Classical.choice, Quot.sound |
| C124 | `Verif.Props.C124_h2eff` | propext, Classical.choice, Quot.sound |
| C125 | `Verif.Props.C125_two_equal_partial` | propext, Classical.choice, Quot.sound |
| C125 | `Verif.Props.C125_division_violated` | propext, Classical.choice, Quot.sound |
| C126 | `Verif.Props.C126_complete_partial` | propext, Classical.choice, Quot.sound |
| C126 | `Verif.Props.C126_exact_partial` | propext, Classical.choice, Quot.sound |
| C126 | `Verif.Props.C126_table_violated` | propext, Quot.sound |
| C127 | `Verif.Props.C127_vector_partial` | propext, Classical.choice, Quot.sound |
| C127 | `Verif.Props.C127_integral_partial` | propext, Classical.choice, Quot.sound |
| C127 | `Verif.Props.C127_strings_violated` | propext, Classical.choice, Quot.sound |
| C128 | `Verif.Props.C128_largest_partial` | propext, Classical.choice, Quot.sound |
| C128 | `Verif.Props.C128_schmidt_partial` | propext, Classical.choice, Quot.sound |
| C128 | `Verif.Props.C128_gradorbs_partial` | propext, Classical.choice, Quot.sound |
| C128 | `Verif.Props.C128_gradorbs_violated` | propext, Classical.choice, Quot.sound |
| C129 | `Verif.Props.C129_fallback_partial` | propext, Classical.choice, Quot.sound |
| C129 | `Verif.Props.C129_shapes_violated` | propext |
| C130 | `Verif.Props.C130_hermitian` | propext, Classical.choice, Quot.sound |
| C130 | `Verif.Props.C130_atomic` | propext, Classical.choice, Quot.sound |
| C130 | `Verif.Props.C130_one_atom_violated` | propext, Classical.choice, Quot.sound |
| C131 | `Verif.Props.C131_one_space_partial` | propext, Classical.choice, Quot.sound |
| C131 | `Verif.Props.C131_index_violated` | propext, Classical.choice, Quot.sound |
