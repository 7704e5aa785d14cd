# Axioms

Printed by `#print axioms` (`tools/axioms.py`).

| Property | Theorem | Axioms |
|---|---|---|
| C01 | `C01_guard_exact_partial` | propext, Classical.choice, Quot.sound |
| C01 | `C01_violated_subtraction` | propext, Classical.choice, Quot.sound |
| C01 | `C01_violated_product` | propext, Classical.choice, Quot.sound |
| C01 | `C01_violated_division_by_zero` | propext, Classical.choice, Quot.sound |
| C01 | `C01_violated_subtracted_difference` | propext, Classical.choice, Quot.sound |
| C02 | `C02_boolean_structure` | propext, Classical.choice, Quot.sound |
| C02 | `C02_results` | propext, Classical.choice, Quot.sound |
| C03 | `C03_generated_guard` | propext, Classical.choice, Quot.sound |
| C04 | `C04_roundtrip_partial` | propext, Classical.choice, Quot.sound |
| C04 | `C04_text_partial` | propext, Classical.choice, Quot.sound |
| C04 | `C04_meaning_partial` | propext, Classical.choice, Quot.sound |
| C04 | `C04_generated_partial` | propext, Classical.choice, Quot.sound |
| C04 | `C04_violated_meaning` | propext, Classical.choice, Quot.sound |
| C04 | `C04_violated_difference` | propext, Classical.choice, Quot.sound |
| C04 | `C04_violated_unreadable` | propext, Classical.choice, Quot.sound |
| C05 | `C05_use_transition` | propext, Classical.choice, Quot.sound |
| C05 | `C05_use_transition_alt` | propext, Classical.choice, Quot.sound |
| C06 | `C06_allowed_exact_partial` | propext, Classical.choice, Quot.sound |
| C06 | `C06_conflict_empty` | propext, Classical.choice, Quot.sound |
| C06 | `C06_allowed_sound` | propext, Classical.choice, Quot.sound |
| C06 | `C06_violated_conflicting_updates` | propext, Classical.choice, Quot.sound |
| C07 | `C07_decisions_partial` | propext, Classical.choice, Quot.sound |
| C07 | `C07_no_crash` | propext, Classical.choice, Quot.sound |
| C07 | `C07_resolve_partial` | propext, Classical.choice, Quot.sound |
| C07 | `C07_violated_ambiguous` | propext, Classical.choice, Quot.sound |
| C07 | `C07_violated_conflicting_updates` | propext, Classical.choice, Quot.sound |
| C08 | `C08_composition_alphabet` | propext, Classical.choice, Quot.sound |
| C08 | `C08_conjunction_alphabet` | propext, Quot.sound |
| C08 | `C08_quotient_alphabet` | propext, Classical.choice, Quot.sound |
| C08 | `C08_disjoint_partial` | propext, Classical.choice, Quot.sound |
| C08 | `C08_violated_nested_quotient` | propext, Classical.choice, Quot.sound |
| C09 | `C09_composition_moves` | propext, Classical.choice, Quot.sound |
| C09 | `C09_composition_invariant` | propext, Classical.choice, Quot.sound |
| C09 | `C09_composition_initial` | propext, Classical.choice, Quot.sound |
| C09 | `C09_composition_actions` | propext, Classical.choice, Quot.sound |
| C10 | `C10_conjunction_moves` | propext, Classical.choice, Quot.sound |
| C10 | `C10_conjunction_enabled` | propext, Classical.choice, Quot.sound |
| C10 | `C10_conjunction_invariant` | propext, Classical.choice, Quot.sound |
| C11 | `C11_exploration_total` | propext, Classical.choice, Quot.sound |
| C11 | `C11_unknown_action` | propext, Classical.choice, Quot.sound |
| C11 | `C11_all_locations` | propext, Classical.choice, Quot.sound |
| C11 | `C11_decisions_total` | propext, Classical.choice, Quot.sound |
| C12 | `C12_deterministic_partial` | propext, Classical.choice, Quot.sound |
| C12 | `C12_failure_is_real` | propext, Classical.choice, Quot.sound |
| C12 | `C12_violated_conflicting_updates` | propext, Classical.choice, Quot.sound |
| C12 | `sysA_deterministic` | propext, Classical.choice, Quot.sound |
| C13 | `C13_composition` | propext, Classical.choice, Quot.sound |
| C13 | `C13_conjunction` | propext, Classical.choice, Quot.sound |
| C13 | `C13_check` | propext, Classical.choice, Quot.sound |
| C14 | `C14_path_replays` | propext, Classical.choice, Quot.sound |
| C14 | `C14_path_is_execution_partial` | propext, Classical.choice, Quot.sound |
| C14 | `C14_violated_lower_bound_invariant` | propext, Classical.choice, Quot.sound |
| C15 | `C15_unreachable_partial` | propext, Classical.choice, Quot.sound |
| C15 | `C15_unreachable_from_initial` | propext, Classical.choice, Quot.sound |
| C15 | `C15_violated_start_not_time_closed` | propext, Classical.choice, Quot.sound |
| C16 | `C16_refines_partial` | propext, Classical.choice, Quot.sound |
| C16 | `C16_example` | propext, Classical.choice, Quot.sound |
| C16 | `C16_violated_initial_delay` | propext, Classical.choice, Quot.sound |
| C16 | `C16_violated_disjunctive_invariant` | propext, Classical.choice, Quot.sound |
| C16 | `C16_violated_conflicting_updates` | propext, Classical.choice, Quot.sound |
| C17 | `C17_alphabet_failure` | propext, Classical.choice, Quot.sound |
| C17 | `C17_explored` | propext, Classical.choice, Quot.sound |
| C17 | `C17_extra` | propext, Quot.sound |
| C18 | `C18_failure_partial` | propext, Classical.choice, Quot.sound |
| C18 | `C18_success_partial` | propext, Classical.choice, Quot.sound |
| C18 | `C18_violated_choice` | propext, Classical.choice, Quot.sound |
| C18 | `C18_violated_covered` | propext, Classical.choice, Quot.sound |
| C18 | `C18_violated_rejected` | propext, Classical.choice, Quot.sound |
| C19 | `C19_determinism_partial` | propext, Classical.choice, Quot.sound |
| C19 | `C19_reachability` | propext, Classical.choice, Quot.sound |
| C19 | `C19_refinement_partial` | propext, Classical.choice, Quot.sound |
| C19 | `C19_violated_consistency` | propext, Classical.choice, Quot.sound |
| C19 | `C19_violated_refinement` | propext, Classical.choice, Quot.sound |
| C20 | `C20_lookup` | propext, Classical.choice, Quot.sound |
| C20 | `C20_hash_zero` | none |
| C20 | `C20_store` | propext, Classical.choice, Quot.sound |
| C21 | `C21_capacity` | propext, Classical.choice, Quot.sound |
| C21 | `C21_entries` | propext, Classical.choice, Quot.sound |
| C21 | `C21_survival` | propext, Classical.choice, Quot.sound |
| C22 | `C22_tokens` | propext, Classical.choice, Quot.sound |
| C22 | `C22_distinct` | propext, Classical.choice, Quot.sound |
| C23 | `C23_decode` | propext, Classical.choice, Quot.sound |
| C23 | `C23_indices_partial` | propext, Classical.choice, Quot.sound |
| C23 | `C23_distinct_partial` | propext, Classical.choice, Quot.sound |
| C23 | `C23_violated_redeclared` | propext, Classical.choice, Quot.sound |
| C24 | `C24_equal_clocks_partial` | propext, Classical.choice, Quot.sound |
| C24 | `C24_instructions` | propext, Classical.choice, Quot.sound |
| C24 | `C24_violated_names` | propext, Classical.choice, Quot.sound |
| C25 | `C25_unused_partial` | propext, Classical.choice, Quot.sound |
| C25 | `C25_removal_partial` | propext, Classical.choice, Quot.sound |
| C25 | `C25_violated_trivial_guard` | propext, Classical.choice, Quot.sound |
| C26 | `C26_compression` | propext, Classical.choice, Quot.sound |
| C27 | `C27_enabled_partial` | propext, Classical.choice, Quot.sound |
| C27 | `C27_violated_wildcard` | propext, Classical.choice, Quot.sound |
| C27 | `C27_violated_double_update` | propext, Classical.choice, Quot.sound |
| C28 | `C28_kept` | propext, Classical.choice, Quot.sound |
| C28 | `C28_exclusive_partial` | propext, Classical.choice, Quot.sound |
| C28 | `C28_ok` | propext, Classical.choice, Quot.sound |
| C28 | `C28_deterministic_partial` | propext, Classical.choice, Quot.sound |
| C28 | `C28_violated_double_update` | propext, Classical.choice, Quot.sound |
| C29 | `C29_unchanged_partial` | propext, Classical.choice, Quot.sound |
| C29 | `C29_nothing_removed` | propext, Classical.choice, Quot.sound |
| C29 | `C29_violated` | propext, Classical.choice, Quot.sound |
| C30 | `C30_saved_partial` | propext, Classical.choice, Quot.sound |
| C30 | `C30_no_initial` | propext, Classical.choice, Quot.sound |
| C30 | `C30_total` | propext, Classical.choice, Quot.sound |
| C30 | `C30_violated_names` | propext, Classical.choice, Quot.sound |
| C31 | `C31_names_partial` | propext, Classical.choice, Quot.sound |
| C31 | `C31_single` | propext, Quot.sound |
| C31 | `C31_unique` | propext, Quot.sound |
| C31 | `C31_violated` | propext, Quot.sound |
| C31 | `C31_violated_panic` | propext, Classical.choice, Quot.sound |
| C32 | `C32_roundtrip` | propext, Classical.choice, Quot.sound |
| C32 | `C32_writable` | propext, Classical.choice, Quot.sound |
| C32 | `C32_total` | propext, Classical.choice, Quot.sound |
| C33 | `C33_round_trip` | propext, Classical.choice, Quot.sound |
| C33 | `C33_reachable` | propext, Classical.choice, Quot.sound |
| C33 | `C33_same_system` | propext, Classical.choice, Quot.sound |
| C34 | `C34_round_trip` | propext, Classical.choice, Quot.sound |
| C34 | `C34_state` | propext, Classical.choice, Quot.sound |
| C35 | `C35_match_partial` | propext, Classical.choice, Quot.sound |
| C35 | `C35_violated_special` | propext |
| C36 | `C36_split_partial` | propext, Classical.choice, Quot.sound |
| C36 | `C36_no_crash_partial` | propext, Classical.choice, Quot.sound |
| C36 | `C36_system_partial` | propext, Classical.choice, Quot.sound |
| C36 | `C36_violated_idle` | propext, Classical.choice, Quot.sound |
| C36 | `C36_violated_rejected` | propext, Classical.choice, Quot.sound |
| C36 | `C36_violated_quotient` | propext, Classical.choice, Quot.sound |
| C37 | `C37_bounds_partial` | propext, Quot.sound |
| C37 | `C37_harmless_partial` | propext, Classical.choice, Quot.sound |
| C37 | `C37_violated_sum` | propext, Classical.choice, Quot.sound |
| C37 | `C37_violated_difference` | propext, Classical.choice, Quot.sound |
| C37 | `C37_violated_named` | propext, Classical.choice, Quot.sound |
| C38 | `C38_waiting_is_stack` | propext, Classical.choice, Quot.sound |
| C38 | `C38_passed_has` | propext, Classical.choice, Quot.sound |
| C38 | `C38_passedVec_has` | propext, Classical.choice, Quot.sound |
| C39 | `C39_quotient_moves_partial` | propext, Classical.choice, Quot.sound |
| C39 | `C39_inputs_never_blocked` | propext, Classical.choice, Quot.sound |
| C39 | `C39_universal` | propext, Classical.choice, Quot.sound |
| C39 | `C39_error` | propext, Classical.choice, Quot.sound |
| C39 | `C39_violated_conflicting_updates` | propext, Classical.choice, Quot.sound |
| C40 | `C40_query` | propext |
| C40 | `C40_no_components` | propext |
| C40 | `C40_answers` | propext, Classical.choice, Quot.sound |
| C40 | `C40_isolated` | propext, Classical.choice, Quot.sound |
| C40 | `C40_total` | propext, Classical.choice, Quot.sound |
| C40 | `C40_hash_needed` | propext |
| C41 | `C41_roundtrip_partial` | propext, Classical.choice, Quot.sound |
| C41 | `C41_read` | propext, Classical.choice, Quot.sound |
| C41 | `C41_saved` | propext, Classical.choice, Quot.sound |
| C41 | `C41_violated_name` | propext, Classical.choice, Quot.sound |
| C41 | `C41_ints_lost` | propext, Classical.choice, Quot.sound |
| C42 | `C42_identify_partial` | propext, Classical.choice, Quot.sound |
| C42 | `C42_violated` | propext, Classical.choice, Quot.sound |
| C43 | `C43_constant_folding_partial` | propext, Quot.sound |
| C43 | `C43_simplify_partial` | propext, Classical.choice, Quot.sound |
| C43 | `C43_names` | propext |
| C43 | `C43_violated_division_by_zero` | propext, Quot.sound |
| C43 | `C43_mod_zero` | propext |
| C44 | `C44_chosen` | propext, Classical.choice, Quot.sound |
| C44 | `C44_other_partial` | propext, Classical.choice, Quot.sound |
| C44 | `C44_directory` | propext, Classical.choice, Quot.sound |
| C44 | `C44_violated_every` | propext, Classical.choice, Quot.sound |
| C44 | `C44_violated` | propext, Classical.choice, Quot.sound |
| C45 | `C45_reflexive` | propext, Classical.choice, Quot.sound |
| C45 | `C45_transitive_partial` | propext, Classical.choice, Quot.sound |
| C45 | `C45_conjunction_lower_partial` | propext, Classical.choice, Quot.sound |
| C45 | `C45_conjunction_greatest` | propext, Classical.choice, Quot.sound |
| C45 | `C45_example` | propext, Classical.choice, Quot.sound |
| C45 | `C45_violated_transitive` | propext, Classical.choice, Quot.sound |
| C45 | `C45_violated_conjunction_outputs` | propext, Classical.choice, Quot.sound |
| C45 | `C45_violated_conjunction_input` | propext, Classical.choice, Quot.sound |
| C46 | `C46_one_location` | propext, Classical.choice, Quot.sound |
| C46 | `C46_denotes_partial` | propext, Classical.choice, Quot.sound |
| C46 | `C46_meaning_partial` | propext, Classical.choice, Quot.sound |
| C46 | `C46_accepts` | propext, Classical.choice, Quot.sound |
| C46 | `C46_query` | propext, Classical.choice, Quot.sound |
| C46 | `C46_get_location` | propext, Classical.choice, Quot.sound |
| C46 | `C46_violated_disjunction` | propext, Classical.choice, Quot.sound |
| C46 | `C46_violated_unknown_component` | propext, Classical.choice, Quot.sound |
| C47 | `C47_composition_monotone` | propext, Classical.choice, Quot.sound |
| C47 | `C47_example` | propext, Classical.choice, Quot.sound |
| C48 | `C48_saved_equivalent_partial` | propext, Classical.choice, Quot.sound |
| C48 | `C48_builds_partial` | propext, Classical.choice, Quot.sound |
| C48 | `C48_saved_again_partial` | propext, Classical.choice, Quot.sound |
| C48 | `C48_violated_initial` | propext, Classical.choice, Quot.sound |
| C49 | `C49_guard_partial` | propext, Quot.sound |
| C49 | `C49_updates_partial` | propext, Classical.choice, Quot.sound |
| C49 | `C49_violated_blank` | propext, Classical.choice, Quot.sound |
| C49 | `C49_violated_every_blank` | propext, Quot.sound |
| C49 | `C49_violated_number` | propext, Classical.choice, Quot.sound |
| C49 | `C49_violated_update` | propext, Classical.choice, Quot.sound |
| C50 | `C50_no_crash_partial` | propext, Classical.choice, Quot.sound |
| C50 | `C50_violated_or` | propext, Classical.choice, Quot.sound |
| C50 | `C50_violated_not` | propext, Classical.choice, Quot.sound |
| C50 | `C50_violated_number` | propext, Classical.choice, Quot.sound |
| C51 | `C51_roundtrip_partial` | propext, Classical.choice, Quot.sound |
| C51 | `C51_violated_save` | propext, Classical.choice, Quot.sound |
| C51 | `C51_violated_not` | propext, Classical.choice, Quot.sound |
| C52 | `C52_roundtrip_partial` | propext, Classical.choice, Quot.sound |
| C52 | `C52_constant_partial` | propext, Classical.choice, Quot.sound |
| C52 | `C52_violated_product` | propext, Classical.choice, Quot.sound |
| C52 | `C52_violated_difference` | propext, Classical.choice, Quot.sound |
| C52 | `C52_violated_sum` | propext, Classical.choice, Quot.sound |
| C53 | `C53_loaded_partial` | propext, Classical.choice, Quot.sound |
| C53 | `C53_exact_partial` | propext, Classical.choice, Quot.sound |
| C53 | `C53_violated_guard` | propext, Classical.choice, Quot.sound |
| C53 | `C53_violated_ints` | propext, Classical.choice, Quot.sound |
| C53 | `C53_violated_action` | propext, Classical.choice, Quot.sound |
| C53 | `C53_violated_ends` | propext, Classical.choice, Quot.sound |
| C54 | `C54_behaviour_partial` | propext, Classical.choice, Quot.sound |
| C54 | `C54_actions_partial` | propext, Classical.choice, Quot.sound |
| C54 | `C54_reach_partial` | propext, Classical.choice, Quot.sound |
| C54 | `C54_renumbered_partial` | propext, Classical.choice, Quot.sound |
| C54 | `C54_position_partial` | propext, Classical.choice, Quot.sound |
| C54 | `C54_loaded_partial` | propext, Classical.choice, Quot.sound |
| C54 | `C54_expression_partial` | propext, Classical.choice, Quot.sound |
| C54 | `C54_violated_written` | propext, Classical.choice, Quot.sound |
| C55 | `C55_refuted_partial` | propext, Classical.choice, Quot.sound |
| C55 | `C55_exact_partial` | propext, Classical.choice, Quot.sound |
| C55 | `C55_violated_closed_target` | propext, Classical.choice, Quot.sound |
| C55 | `C55_violated_gap` | propext, Classical.choice, Quot.sound |
| C55 | `C55_violated_bounds` | propext, Classical.choice, Quot.sound |
| C56 | `next_named` | propext, Classical.choice, Quot.sound |
| C56 | `C56_offered_partial` | propext, Classical.choice, Quot.sound |
| C56 | `C56_violated_quotient` | propext, Classical.choice, Quot.sound |
| C57 | `C57_start` | propext, Classical.choice, Quot.sound |
| C57 | `C57_step_partial` | propext, Classical.choice, Quot.sound |
| C57 | `C57_sound` | propext, Classical.choice, Quot.sound |
| C57 | `C57_complete_partial` | propext, Classical.choice, Quot.sound |
| C57 | `C57_violated_empty_action` | propext, Classical.choice, Quot.sound |
| C58 | `state_described` | propext, Classical.choice, Quot.sound |
| C58 | `pair_described` | propext, Classical.choice, Quot.sound |
| C58 | `C58_reported` | propext, Classical.choice, Quot.sound |
| C58 | `C58_real_partial` | propext, Classical.choice, Quot.sound |
| C59 | `C59_determinism` | propext, Classical.choice, Quot.sound |
| C59 | `C59_local_consistency` | propext, Classical.choice, Quot.sound |
| C59 | `C59_consistency` | propext, Classical.choice, Quot.sound |
| C59 | `C59_refinement` | propext, Classical.choice, Quot.sound |
| C59 | `C59_reachability` | propext, Classical.choice, Quot.sound |
| C59 | `C59_steps_consistency` | propext, Classical.choice, Quot.sound |
| C59 | `C59_steps_refinement` | propext, Classical.choice, Quot.sound |
| C59 | `C59_steps_reachability` | propext, Classical.choice, Quot.sound |
| C59 | `C59_clock_analysis` | propext, Classical.choice, Quot.sound |
| C59 | `C59_compile` | propext, Classical.choice, Quot.sound |
| C59 | `C59_clock_reduction` | propext, Classical.choice, Quot.sound |
| C59 | `C59_get_component` | propext, Classical.choice, Quot.sound |
| C59 | `C59_prune` | propext, Classical.choice, Quot.sound |
| C60 | `C60_single_partial` | propext, Classical.choice, Quot.sound |
| C60 | `C60_two_partial` | propext, Classical.choice, Quot.sound |
| C60 | `C60_numbered` | propext, Classical.choice, Quot.sound |
| C60 | `C60_numbered_two` | propext, Classical.choice, Quot.sound |
| C60 | `C60_violated_quotient_clock` | propext, Classical.choice, Quot.sound |
| C61 | `C61_query` | propext, Classical.choice, Quot.sound |
| C61 | `C61_query_failure` | propext, Classical.choice, Quot.sound |
| C61 | `C61_composition` | propext, Classical.choice, Quot.sound |
| C61 | `C61_enabled` | propext, Classical.choice, Quot.sound |
| C61 | `C61_parts` | propext, Classical.choice, Quot.sound |
| C61 | `C61_needs_enabled` | propext, Classical.choice, Quot.sound |
| C61 | `C61_violated_quotient` | propext, Classical.choice, Quot.sound |
| C62 | `C62_system` | propext, Classical.choice, Quot.sound |
| C62 | `C62_queries_partial` | propext, Classical.choice, Quot.sound |
| C62 | `C62_every` | none |
| C62 | `C62_violated_or` | propext, Classical.choice, Quot.sound |
| C62 | `C62_violated_not` | propext, Classical.choice, Quot.sound |
| C62 | `C62_violated_name` | propext, Classical.choice, Quot.sound |
| C62 | `C62_violated_minus` | propext, Classical.choice, Quot.sound |
| C63 | `C63_quotient_partial` | propext, Classical.choice, Quot.sound |
| C63 | `C63_sound_partial` | propext, Classical.choice, Quot.sound |
| C63 | `C63_complete_partial` | propext, Classical.choice, Quot.sound |
| C63 | `C63_violated_stuck` | propext, Classical.choice, Quot.sound |
| C63 | `C63_example` | propext, Classical.choice, Quot.sound |
| C64 | `C64_refinement_partial` | propext, Classical.choice, Quot.sound |
| C64 | `C64_exact_partial` | propext, Classical.choice, Quot.sound |
| C64 | `C64_system_partial` | propext, Classical.choice, Quot.sound |
| C64 | `C64_determinism_partial` | propext, Classical.choice, Quot.sound |
| C64 | `C64_text_partial` | propext, Classical.choice, Quot.sound |
| C64 | `C64_written_partial` | propext, Classical.choice, Quot.sound |
| C64 | `C64_several` | propext, Classical.choice, Quot.sound |
| C64 | `C64_refinement_ends_partial` | propext, Classical.choice, Quot.sound |
| C64 | `C64_checks_end_partial` | propext, Classical.choice, Quot.sound |
| C64 | `C64_unreachable_partial` | propext, Classical.choice, Quot.sound |
| C64 | `C64_reachability_partial` | propext, Classical.choice, Quot.sound |
| C64 | `C64_reachability_from_partial` | propext, Classical.choice, Quot.sound |
| C64 | `C64_goal_bounds` | propext, Classical.choice, Quot.sound |
| C64 | `C64_component_partial` | propext, Classical.choice, Quot.sound |
| C64 | `C64_component_builds_partial` | propext, Classical.choice, Quot.sound |
| C64 | `C64_settings_refinement_partial` | propext, Classical.choice, Quot.sound |
| C64 | `C64_settings_determinism_partial` | propext, Classical.choice, Quot.sound |
| C64 | `C64_settings_reachability_partial` | propext, Classical.choice, Quot.sound |
| C64 | `C64_violated_goal` | propext, Classical.choice, Quot.sound |
| C64 | `C64_violated_nowhere` | propext, Classical.choice, Quot.sound |
| C65 | `C65_session` | propext, Classical.choice, Quot.sound |
| C65 | `C65_independent` | propext, Classical.choice, Quot.sound |
| C65 | `C65_server` | propext, Classical.choice, Quot.sound |
| C65 | `C65_xml` | propext, Classical.choice, Quot.sound |
| C65 | `C65_reopened_partial` | propext, Classical.choice, Quot.sound |
| C65 | `C65_violated_own_queries` | propext, Classical.choice, Quot.sound |
| C65 | `C65_violated_reopened` | propext, Classical.choice, Quot.sound |
| C66 | `C66_json_partial` | propext, Classical.choice, Quot.sound |
| C66 | `C66_xml_partial` | propext, Classical.choice, Quot.sound |
| C66 | `C66_unknown_partial` | propext, Classical.choice, Quot.sound |
| C66 | `C66_project_partial` | propext, Classical.choice, Quot.sound |
| C66 | `C66_accepts_partial` | propext, Classical.choice, Quot.sound |
| C66 | `C66_violated_indented` | propext, Classical.choice, Quot.sound |
| C66 | `C66_violated_line_ends` | propext, Classical.choice, Quot.sound |
| C66 | `C66_violated_commas` | propext, Classical.choice, Quot.sound |
| C66 | `C66_violated_panics` | propext, Classical.choice, Quot.sound |
| C67 | `C67_component` | propext, Classical.choice, Quot.sound |
| C67 | `C67_names` | propext, Classical.choice, Quot.sound |
| C67 | `C67_project_partial` | propext, Classical.choice, Quot.sound |
| C67 | `C67_violated_comment` | propext, Classical.choice, Quot.sound |
| C67 | `C67_violated_empty_label` | propext, Classical.choice, Quot.sound |
| C67 | `C67_violated_no_sync` | propext |
| C67 | `C67_violated_names` | propext |
| C67 | `C67_violated_no_system` | propext, Classical.choice, Quot.sound |
| C68 | `C68_query_partial` | propext, Classical.choice, Quot.sound |
| C68 | `C68_refinement_partial` | propext, Classical.choice, Quot.sound |
| C68 | `C68_start_partial` | propext, Classical.choice, Quot.sound |
| C68 | `C68_step_partial` | propext, Classical.choice, Quot.sound |
| C68 | `C68_simulation_partial` | propext, Classical.choice, Quot.sound |
| C68 | `C68_violated_dropped` | propext, Classical.choice, Quot.sound |
| C68 | `C68_violated_stale` | propext, Classical.choice, Quot.sound |
| C68 | `C68_violated_blame` | propext, Classical.choice, Quot.sound |
| C68 | `C68_violated_declared` | propext, Classical.choice, Quot.sound |
| C69 | `C69_restriction_partial` | propext, Classical.choice, Quot.sound |
| C69 | `C69_consistent_partial` | propext, Classical.choice, Quot.sound |
| C69 | `C69_inputs_partial` | propext, Classical.choice, Quot.sound |
| C69 | `C69_safe_kept_partial` | propext, Classical.choice, Quot.sound |
| C69 | `C69_ends_partial` | propext, Classical.choice, Quot.sound |
| C69 | `C69_ends_documented_partial` | propext, Classical.choice, Quot.sound |
| C69 | `C69_violated_trap` | propext, Classical.choice, Quot.sound |
| C69 | `C69_violated_stuck` | propext, Classical.choice, Quot.sound |
| C69 | `C69_violated_late` | propext, Classical.choice, Quot.sound |
| C70 | `C70_reachable_partial` | propext, Classical.choice, Quot.sound |
| C70 | `C70_verdict_partial` | propext, Classical.choice, Quot.sound |
| C70 | `C70_violated_difference` | propext, Classical.choice, Quot.sound |
| C71 | `C13_quotient_partial` | propext, Classical.choice, Quot.sound |
| C71 | `C13_check` | propext, Classical.choice, Quot.sound |
| C71 | `C13_violated_quotient_input` | propext, Classical.choice, Quot.sound |
| C72 | `C72_determinism_partial` | propext, Classical.choice, Quot.sound |
| C72 | `C72_consistency_partial` | propext, Classical.choice, Quot.sound |
| C72 | `C72_determinism_verdict` | propext, Classical.choice, Quot.sound |
| C72 | `C72_consistency_verdict` | propext, Classical.choice, Quot.sound |
| C72 | `C72_violated_state` | propext, Classical.choice, Quot.sound |
| C73 | `C73_component` | propext, Classical.choice, Quot.sound |
| C73 | `C73_composition_partial` | propext, Classical.choice, Quot.sound |
| C73 | `C73_conjunction_partial` | propext, Classical.choice, Quot.sound |
| C73 | `C73_quotient_partial` | propext, Classical.choice, Quot.sound |
| C73 | `C73_refinement_partial` | propext, Classical.choice, Quot.sound |
| C73 | `C73_message` | propext |
| C73 | `C73_text` | propext, Classical.choice, Quot.sound |
| C73 | `C73_violated_empty` | propext, Classical.choice, Quot.sound |
| C74 | `C74_system` | propext, Classical.choice, Quot.sound |
| C74 | `C74_refinement` | propext, Classical.choice, Quot.sound |
| C74 | `C74_refused` | propext, Classical.choice, Quot.sound |
| C75 | `C75_path_partial` | propext, Classical.choice, Quot.sound |
| C75 | `C75_goal_partial` | propext, Classical.choice, Quot.sound |
| C75 | `C75_answer_partial` | propext, Classical.choice, Quot.sound |
| C75 | `C75_same_messages` | propext, Classical.choice, Quot.sound |
| C76 | `C76_verdict` | propext, Classical.choice, Quot.sound |
| C76 | `C76_response` | propext, Classical.choice, Quot.sound |
| C76 | `C76_refinement_partial` | propext, Classical.choice, Quot.sound |
| C76 | `C76_refinement_answered_partial` | propext, Classical.choice, Quot.sound |
| C76 | `C76_checks_answered_partial` | propext, Classical.choice, Quot.sound |
| C76 | `C76_component` | propext, Classical.choice, Quot.sound |
| C76 | `C76_component_answered_partial` | propext, Classical.choice, Quot.sound |
| C76 | `C76_reachability_answered_partial` | propext, Classical.choice, Quot.sound |
| C76 | `C76_success_partial` | propext, Classical.choice, Quot.sound |
| C77 | `C77_total` | propext, Classical.choice, Quot.sound |
| C77 | `C77_verdict` | propext, Classical.choice, Quot.sound |
| C77 | `C77_results_partial` | propext, Classical.choice, Quot.sound |
| C77 | `C77_readable` | propext, Classical.choice, Quot.sound |
| C77 | `C77_path_readable` | propext, Classical.choice, Quot.sound |
| C77 | `C77_refinement_answered_partial` | propext, Classical.choice, Quot.sound |
| C77 | `C77_reachability_answered_partial` | propext, Classical.choice, Quot.sound |
| C77 | `C77_violated_names` | propext, Classical.choice, Quot.sound |
| C78 | `C78_component` | propext, Classical.choice, Quot.sound |
| C78 | `C78_compile_partial` | propext, Classical.choice, Quot.sound |
| C78 | `C78_checks_partial` | propext, Classical.choice, Quot.sound |
| C78 | `C78_refinement_partial` | propext, Classical.choice, Quot.sound |
| C78 | `C78_search_partial` | propext, Classical.choice, Quot.sound |
| C78 | `C78_reachability_partial` | propext, Classical.choice, Quot.sound |
| C78 | `C78_save` | propext, Classical.choice, Quot.sound |
| C78 | `C78_get_component_partial` | propext, Classical.choice, Quot.sound |
| C78 | `C78_prune_system` | propext, Classical.choice, Quot.sound |
| C78 | `C78_prune_partial` | propext, Classical.choice, Quot.sound |
| C78 | `C78_violated_rejected_guard` | propext, Classical.choice, Quot.sound |
| C78 | `C78_violated_difference` | propext, Classical.choice, Quot.sound |
| C78 | `C78_violated_lower_bound` | propext, Classical.choice, Quot.sound |
| C78 | `C78_violated_two_values` | propext, Classical.choice, Quot.sound |
| C78 | `C78_violated_negation` | propext, Classical.choice, Quot.sound |
| C78 | `C78_violated_lost_name` | propext, Classical.choice, Quot.sound |
| C78 | `C78_violated_prune` | propext, Classical.choice, Quot.sound |
| C78 | `C64_violated_nowhere` | propext, Classical.choice, Quot.sound |
| C79 | `C79_composition_comm` | propext, Classical.choice, Quot.sound |
| C79 | `C79_composition_assoc` | propext, Classical.choice, Quot.sound |
| C79 | `C79_conjunction_comm` | propext, Classical.choice, Quot.sound |
| C79 | `C79_conjunction_assoc_partial` | propext, Classical.choice, Quot.sound |
| C79 | `C79_same_answers` | propext, Classical.choice, Quot.sound |
| C79 | `C79_composition_expr_partial` | propext, Classical.choice, Quot.sound |
| C79 | `C79_conjunction_expr_partial` | propext, Classical.choice, Quot.sound |
| C79 | `C79_composition_grouping_partial` | propext, Classical.choice, Quot.sound |
| C79 | `C79_conjunction_grouping_partial` | propext, Classical.choice, Quot.sound |
| C79 | `C79_refinement_answers_partial` | propext, Classical.choice, Quot.sound |
| C79 | `C79_refinement_answers_conjunction_partial` | propext, Classical.choice, Quot.sound |
| C79 | `C79_refinement_answers_right_partial` | propext, Classical.choice, Quot.sound |
| C79 | `C79_refinement_answers_right_conjunction_partial` | propext, Classical.choice, Quot.sound |
| C79 | `C79_determinism_answers_partial` | propext, Classical.choice, Quot.sound |
| C79 | `C79_violated_conjunction_order` | propext, Classical.choice, Quot.sound |
| C80 | `C80_reflexive_partial` | propext, Classical.choice, Quot.sound |
| C80 | `C80_transitive_partial` | propext, Classical.choice, Quot.sound |
| C80 | `C80_conjunction_left_partial` | propext, Classical.choice, Quot.sound |
| C80 | `C80_conjunction_right_partial` | propext, Classical.choice, Quot.sound |
| C80 | `C80_conjunction_greatest_partial` | propext, Classical.choice, Quot.sound |
| C80 | `C80_composition_monotone_partial` | propext, Classical.choice, Quot.sound |
| C80 | `C80_quotient_partial` | propext, Classical.choice, Quot.sound |
| C80 | `C80_determinism_partial` | propext, Classical.choice, Quot.sound |
| C80 | `C80_determinism_named_partial` | propext, Classical.choice, Quot.sound |
| C80 | `C80_refused_partial` | propext, Classical.choice, Quot.sound |
| C80 | `C80_saved_partial` | propext, Classical.choice, Quot.sound |
