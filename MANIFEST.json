{
 "claims": [
  {
   "property": "C01",
   "status": "partial",
   "theorems": [
    "Reveaal.C01_guard_exact_partial",
    "Reveaal.C01_violated_subtraction",
    "Reveaal.C01_violated_product",
    "Reveaal.C01_violated_division_by_zero",
    "Reveaal.C01_violated_subtracted_difference"
   ],
   "note": "Exact for a syntactic fragment (one clock with added constants, constant minus clock, clock differences with constants next to one clock, clock against clock). The full property is false of the code: four accepted guards with a different meaning are exhibited."
  },
  {
   "property": "C02",
   "status": "proved",
   "theorems": [
    "Reveaal.C02_boolean_structure",
    "Reveaal.C02_results"
   ],
   "note": "For all guards and all sets of valuations."
  },
  {
   "property": "C03",
   "status": "proved",
   "theorems": [
    "Reveaal.C03_generated_guard"
   ],
   "note": "For all disjunctions and all injective namings; the only failure is an i32 overflow panic."
  },
  {
   "property": "C04",
   "status": "partial",
   "theorems": [
    "Reveaal.C04_roundtrip_partial",
    "Reveaal.C04_text_partial",
    "Reveaal.C04_meaning_partial",
    "Reveaal.C04_generated_partial",
    "Reveaal.C04_violated_meaning",
    "Reveaal.C04_violated_difference",
    "Reveaal.C04_violated_unreadable"
   ],
   "note": "Read back exactly: every guard without redundant nesting (the same nesting the parser would build), every guard read from a text without parentheses, and every generated guard of one conjunction. Same meaning for every conjunction of disjunctions of comparisons, grouped in any way. False in general (witnesses): encode_expr writes no parentheses and the parser binds || tighter than &&, so a generated guard a && b || c changes meaning; a negative constant cannot be read."
  },
  {
   "property": "C05",
   "status": "proved",
   "theorems": [
    "Reveaal.C05_use_transition",
    "Reveaal.C05_use_transition_alt"
   ],
   "note": "For all transitions with well-formed updates and all states."
  },
  {
   "property": "C06",
   "status": "partial",
   "theorems": [
    "Reveaal.C06_allowed_exact_partial",
    "Reveaal.C06_conflict_empty",
    "Reveaal.C06_allowed_sound",
    "Reveaal.C06_violated_conflicting_updates"
   ],
   "note": "Exact when no clock is assigned two different values; a transition assigning a clock twice violates the property (the allowed set is empty), proved by a witness."
  },
  {
   "property": "C07",
   "status": "partial",
   "theorems": [
    "Reveaal.C07_decisions_partial",
    "Reveaal.C07_no_crash",
    "Reveaal.C07_resolve_partial",
    "Reveaal.C07_violated_ambiguous",
    "Reveaal.C07_violated_conflicting_updates"
   ],
   "note": "Decisions are exact for time-closed invariants and non-conflicting updates; resolving a decision is exact when the action is unambiguous. Both restrictions are needed: witnesses are proved."
  },
  {
   "property": "C08",
   "status": "partial",
   "theorems": [
    "Reveaal.C08_composition_alphabet",
    "Reveaal.C08_conjunction_alphabet",
    "Reveaal.C08_quotient_alphabet",
    "Reveaal.C08_disjoint_partial",
    "Reveaal.C08_violated_nested_quotient"
   ],
   "note": "Alphabets of the three operators are exact; disjointness of inputs and outputs holds whenever the generated input of every quotient is not also an action of the operands. A nested quotient violates it: witness proved."
  },
  {
   "property": "C09",
   "status": "proved",
   "theorems": [
    "Reveaal.C09_composition_moves",
    "Reveaal.C09_composition_invariant",
    "Reveaal.C09_composition_initial",
    "Reveaal.C09_composition_actions"
   ],
   "note": "For every pair of accepted systems with different clocks, every pair of locations, every valuation and every action."
  },
  {
   "property": "C10",
   "status": "proved",
   "theorems": [
    "Reveaal.C10_conjunction_moves",
    "Reveaal.C10_conjunction_enabled",
    "Reveaal.C10_conjunction_invariant"
   ],
   "note": "For every pair of accepted systems with different clocks."
  },
  {
   "property": "C11",
   "status": "proved",
   "theorems": [
    "Reveaal.C11_exploration_total",
    "Reveaal.C11_unknown_action",
    "Reveaal.C11_all_locations",
    "Reveaal.C11_decisions_total"
   ],
   "note": "For every accepted system, by induction on its construction and on the exploration."
  },
  {
   "property": "C12",
   "status": "partial",
   "theorems": [
    "Reveaal.C12_deterministic_partial",
    "Reveaal.C12_failure_is_real",
    "Reveaal.C12_violated_conflicting_updates",
    "Reveaal.sysA_deterministic"
   ],
   "note": "For every accepted system and every run; transitions that assign two values to one clock are excluded, for these the property is false (witness proved). A negative verdict names a real ambiguity."
  },
  {
   "property": "C13",
   "status": "proved",
   "theorems": [
    "Reveaal.C13_composition",
    "Reveaal.C13_conjunction",
    "Reveaal.C13_check"
   ],
   "note": "For every pair of accepted systems with different clocks; C13_check lifts it to whole trees of operators and the tool's own check (quotients: C71)."
  },
  {
   "property": "C14",
   "status": "partial",
   "theorems": [
    "Reveaal.C14_path_replays",
    "Reveaal.C14_path_is_execution_partial",
    "Reveaal.C14_violated_lower_bound_invariant"
   ],
   "note": "C14_path_replays: every answer can be replayed symbolically step by step and ends in a matching location, for every accepted system. C14_path_is_execution_partial: a concrete timed run exists when invariants are upper bounds on time; for lower-bound invariants the claim is false (witness proved)."
  },
  {
   "property": "C15",
   "status": "partial",
   "theorems": [
    "Reveaal.C15_unreachable_partial",
    "Reveaal.C15_unreachable_from_initial",
    "Reveaal.C15_violated_start_not_time_closed"
   ],
   "note": "For every accepted system whose query gives no start state; with a start state the claim is proved when the start zone is closed under delays, and false otherwise (witness proved)."
  },
  {
   "property": "C16",
   "status": "partial",
   "theorems": [
    "Reveaal.C16_refines_partial",
    "Reveaal.C16_example",
    "Reveaal.C16_violated_initial_delay",
    "Reveaal.C16_violated_disjunctive_invariant",
    "Reveaal.C16_violated_conflicting_updates"
   ],
   "note": "For every pair of accepted systems with different clocks: a success verdict gives a refinement relation on concrete states, if the right side's invariants are convex in time (implied by no `||`, see Verif.Lemmas.Convex), no clock is assigned two values at once and the initial delays of the left side are allowed on the right. Each of the three restrictions is needed: witnesses proved."
  },
  {
   "property": "C17",
   "status": "proved",
   "theorems": [
    "Reveaal.C17_alphabet_failure",
    "Reveaal.C17_explored",
    "Reveaal.C17_extra"
   ],
   "note": "For all pairs of accepted systems and all iteration orders."
  },
  {
   "property": "C18",
   "status": "partial",
   "theorems": [
    "Reveaal.C18_failure_partial",
    "Reveaal.C18_success_partial",
    "Reveaal.C18_violated_choice",
    "Reveaal.C18_violated_covered",
    "Reveaal.C18_violated_rejected"
   ],
   "note": "A rejection is right about the symbolic states of the search, for every system and order. A success gives a strategy on sets of valuations if the search never chooses between outputs. The full property is false of the code: three accepted systems with a wrong verdict are exhibited."
  },
  {
   "property": "C19",
   "status": "partial",
   "theorems": [
    "Reveaal.C19_determinism_partial",
    "Reveaal.C19_reachability",
    "Reveaal.C19_refinement_partial",
    "Reveaal.C19_violated_consistency",
    "Reveaal.C19_violated_refinement"
   ],
   "note": "The determinism check gives the same verdict for all iteration orders, for systems (quotients included) whose components compare clocks with literals only. The search for a path sorts the actions, so its result is the same for all orders. The refinement verdict is the same for all orders if the consistency checks do not fail, for the systems of C55. The full property is false of the code: the consistency verdict of an ordinary component can depend on the order of its inputs, and the refinement verdict on the order of the outputs where an edge leads to a location that cannot always be entered."
  },
  {
   "property": "C20",
   "status": "proved",
   "theorems": [
    "Reveaal.C20_lookup",
    "Reveaal.C20_hash_zero",
    "Reveaal.C20_store"
   ],
   "note": "For every history of operations of any users."
  },
  {
   "property": "C21",
   "status": "proved",
   "theorems": [
    "Reveaal.C21_capacity",
    "Reveaal.C21_entries",
    "Reveaal.C21_survival"
   ],
   "note": "For every history and every capacity; the lru crate is modelled as a list in order of use."
  },
  {
   "property": "C22",
   "status": "proved",
   "theorems": [
    "Reveaal.C22_tokens",
    "Reveaal.C22_distinct"
   ],
   "note": "For every number of calls; the atomic counter makes every interleaving a sequence."
  },
  {
   "property": "C23",
   "status": "partial",
   "theorems": [
    "Reveaal.C23_decode",
    "Reveaal.C23_indices_partial",
    "Reveaal.C23_distinct_partial",
    "Reveaal.C23_violated_redeclared"
   ],
   "note": "Proved for every query over components whose clock names are declared once; violated for a component that declares a name twice (C23_violated_redeclared). All quotients of one query share one clock."
  },
  {
   "property": "C24",
   "status": "partial",
   "theorems": [
    "Reveaal.C24_equal_clocks_partial",
    "Reveaal.C24_instructions",
    "Reveaal.C24_violated_names"
   ],
   "note": "for every accepted system whose location names contain no brackets or operator symbols, every reachable state and every iteration order, clocks reported as equivalent are equal; the analysis identifies locations by printed names, so a location called 'a||b' can be confused with a pair and the full property is false (witness)"
  },
  {
   "property": "C25",
   "status": "partial",
   "theorems": [
    "Reveaal.C25_unused_partial",
    "Reveaal.C25_removal_partial",
    "Reveaal.C25_violated_trivial_guard"
   ],
   "note": "a clock reported as unused never influences moves or delays (bisimulation of valuations that differ in it only); removal keeps the meaning of all guards and invariants if those that mention the clock can never hold; false in general: a guard 'x >= 0 && ...' mentions a clock that is reported as unused and becomes false (witness)"
  },
  {
   "property": "C26",
   "status": "proved",
   "theorems": [
    "Reveaal.C26_compression"
   ],
   "note": "any number of recipes"
  },
  {
   "property": "C27",
   "status": "partial",
   "theorems": [
    "Reveaal.C27_enabled_partial",
    "Reveaal.C27_violated_wildcard",
    "Reveaal.C27_violated_double_update"
   ],
   "note": "for every component without wildcard edges in which no edge assigns two different values to one clock, every location, every input and every valuation of the invariant; false for wildcard edges (counted when loops are added, ignored when the component is compiled) and for clocks assigned twice (witnesses)"
  },
  {
   "property": "C28",
   "status": "partial",
   "theorems": [
    "Reveaal.C28_kept",
    "Reveaal.C28_exclusive_partial",
    "Reveaal.C28_ok",
    "Reveaal.C28_deterministic_partial",
    "Reveaal.C28_violated_double_update"
   ],
   "note": "existing edges kept and only loops added: for every component; exclusion of new loops and existing edges, and preservation of determinism: if no edge assigns two different values to one clock; false otherwise (witness)"
  },
  {
   "property": "C29",
   "status": "partial",
   "theorems": [
    "Reveaal.C29_unchanged_partial",
    "Reveaal.C29_nothing_removed",
    "Reveaal.C29_violated"
   ],
   "note": "false of the code: every state reachable before pruning is reachable afterwards (theorem for every system with ordinary location names), because the saved component has no location of type inconsistent; concrete witness. The loop of the pruning algorithm is a parameter of the theorems: it is never run from a query. For the loop itself see C69."
  },
  {
   "property": "C30",
   "status": "partial",
   "theorems": [
    "Reveaal.C30_saved_partial",
    "Reveaal.C30_no_initial",
    "Reveaal.C30_total",
    "Reveaal.C30_violated_names"
   ],
   "note": "for every accepted system whose location names contain none of the characters ( ) | & \\ [ ]; with such names two locations can be saved under one name (witness). C30_total: saving ends, and fails only by arithmetic overflow, when no clock name ends in a digit."
  },
  {
   "property": "C31",
   "status": "partial",
   "theorems": [
    "Reveaal.C31_names_partial",
    "Reveaal.C31_single",
    "Reveaal.C31_unique",
    "Reveaal.C31_violated",
    "Reveaal.C31_violated_panic"
   ],
   "note": "for every list of declarations in which no clock name ends in a digit; false otherwise: the clocks x, x1 and x of two parts are merged into two names, and saving the composition panics (witnesses)"
  },
  {
   "property": "C32",
   "status": "proved",
   "theorems": [
    "Reveaal.C32_roundtrip",
    "Reveaal.C32_writable",
    "Reveaal.C32_total"
   ],
   "note": "every expression that the reader returns, and every expression whose names can be written, is read back from its printed text; reading a system expression never panics"
  },
  {
   "property": "C33",
   "status": "proved",
   "theorems": [
    "Reveaal.C33_round_trip",
    "Reveaal.C33_reachable",
    "Reveaal.C33_same_system"
   ],
   "note": "For every recipe of components the compiler accepts, including quotients: a location sent by one build of the system is read back as exactly that location by any other build of it. Encoding messages into bytes (prost) is not modelled."
  },
  {
   "property": "C34",
   "status": "proved",
   "theorems": [
    "Reveaal.C34_round_trip",
    "Reveaal.C34_state"
   ],
   "note": "For every zone of every compiled recipe, any iteration order of the clock tables: the zone read back has the same valuations. Assumes at most 2^32 clocks (the code panics otherwise) and that a clock name occurs once in a component's table (it is a hash map). The list of constraints of a zone comes from the zone library, whose law is assumed in Zones.lean and proved of the implementation in ZoneImpl.lean."
  },
  {
   "property": "C35",
   "status": "partial",
   "theorems": [
    "Reveaal.C35_match_partial",
    "Reveaal.C35_violated_special"
   ],
   "note": "For every location and pattern of every accepted system; a pattern that names a special quotient location never matches (witness proved)."
  },
  {
   "property": "C36",
   "status": "partial",
   "theorems": [
    "Reveaal.C36_split_partial",
    "Reveaal.C36_no_crash_partial",
    "Reveaal.C36_system_partial",
    "Reveaal.C36_violated_idle",
    "Reveaal.C36_violated_rejected",
    "Reveaal.C36_violated_quotient"
   ],
   "note": "for every path whose transitions use every component, and for systems of at most one idle component in the right place; false otherwise: a move of the third component is attributed to the second, a possible path is refused, a quotient crashes (witnesses)"
  },
  {
   "property": "C37",
   "status": "partial",
   "theorems": [
    "Reveaal.C37_bounds_partial",
    "Reveaal.C37_harmless_partial",
    "Reveaal.C37_violated_sum",
    "Reveaal.C37_violated_difference",
    "Reveaal.C37_violated_named"
   ],
   "note": "For every literal a clock is directly compared with, and then extrapolation is harmless for compositions, conjunctions and quotients. The full property is false of the code for sums, clock differences and named constants: witnesses."
  },
  {
   "property": "C38",
   "status": "proved",
   "theorems": [
    "Reveaal.C38_waiting_is_stack",
    "Reveaal.C38_passed_has",
    "Reveaal.C38_passedVec_has"
   ],
   "note": "For every sequence of operations, against a stack specification."
  },
  {
   "property": "C39",
   "status": "partial",
   "theorems": [
    "Reveaal.C39_quotient_moves_partial",
    "Reveaal.C39_inputs_never_blocked",
    "Reveaal.C39_universal",
    "Reveaal.C39_error",
    "Reveaal.C39_violated_conflicting_updates"
   ],
   "note": "The moves of a quotient are exactly the quotient rules for every pair of accepted systems with different clocks, as long as no transition assigns two different values to one clock; with such updates the error location is entered although T can follow (witness proved)."
  },
  {
   "property": "C40",
   "status": "proved",
   "theorems": [
    "Reveaal.C40_query",
    "Reveaal.C40_no_components",
    "Reveaal.C40_answers",
    "Reveaal.C40_isolated",
    "Reveaal.C40_total",
    "Reveaal.C40_hash_needed"
   ],
   "note": "For every request, every behaviour of the called code (crashes included; it may differ from request to request) and every interleaving of any number of requests. A query that cannot be built because of a recipe failure (clocks or components) is answered with that failure, not with an error status."
  },
  {
   "property": "C41",
   "status": "partial",
   "theorems": [
    "Reveaal.C41_roundtrip_partial",
    "Reveaal.C41_read",
    "Reveaal.C41_saved",
    "Reveaal.C41_violated_name",
    "Reveaal.C41_ints_lost"
   ],
   "note": "for all names that can be declared, hence for every component that was read or saved; false for a name with a blank (witness). The integers are lost"
  },
  {
   "property": "C42",
   "status": "partial",
   "theorems": [
    "Reveaal.C42_identify_partial",
    "Reveaal.C42_violated"
   ],
   "note": "for accepted systems whose location names contain none of the characters ( ) | & \\ [ ]; false otherwise (witness)"
  },
  {
   "property": "C43",
   "status": "partial",
   "theorems": [
    "Reveaal.C43_constant_folding_partial",
    "Reveaal.C43_simplify_partial",
    "Reveaal.C43_names",
    "Reveaal.C43_violated_division_by_zero",
    "Reveaal.C43_mod_zero"
   ],
   "note": "Holds for every expression that denotes an integer; division by zero is folded to 0, which violates the property."
  },
  {
   "property": "C44",
   "status": "partial",
   "theorems": [
    "Reveaal.C44_chosen",
    "Reveaal.C44_other_partial",
    "Reveaal.C44_directory",
    "Reveaal.C44_violated_every",
    "Reveaal.C44_violated"
   ],
   "note": "other files and directories are read as JSON; false for XML: exactly the files called .xml are recognised, so no XML project with a proper name is"
  },
  {
   "property": "C45",
   "status": "partial",
   "theorems": [
    "Reveaal.C45_reflexive",
    "Reveaal.C45_transitive_partial",
    "Reveaal.C45_conjunction_lower_partial",
    "Reveaal.C45_conjunction_greatest",
    "Reveaal.C45_example",
    "Reveaal.C45_violated_transitive",
    "Reveaal.C45_violated_conjunction_outputs",
    "Reveaal.C45_violated_conjunction_input"
   ],
   "note": "Reflexive for systems with disjoint inputs and outputs; transitive if outputs of the first are not inputs of the last (otherwise false: witness); a conjunction refines its operands if they have the same actions and the other operand accepts all inputs (otherwise false: two witnesses), and is then the greatest lower bound for deterministic systems."
  },
  {
   "property": "C46",
   "status": "partial",
   "theorems": [
    "Reveaal.C46_one_location",
    "Reveaal.C46_denotes_partial",
    "Reveaal.C46_meaning_partial",
    "Reveaal.C46_accepts",
    "Reveaal.C46_query",
    "Reveaal.C46_get_location",
    "Reveaal.C46_violated_disjunction",
    "Reveaal.C46_violated_unknown_component"
   ],
   "note": "at most one location per component: proved for every state expression; accepted states stand for the named locations with their clock constraints (also inside disjunctions), and conjunctions of known names are accepted; they mean what they say: proved for conjunctions of locations of the system's components and comparisons of the fragment of C01; false for disjunctions and for names of components that are not in the system (witnesses)"
  },
  {
   "property": "C47",
   "status": "proved",
   "theorems": [
    "Reveaal.C47_composition_monotone",
    "Reveaal.C47_example"
   ],
   "note": "For every triple of accepted systems with different clocks."
  },
  {
   "property": "C48",
   "status": "partial",
   "theorems": [
    "Reveaal.C48_saved_equivalent_partial",
    "Reveaal.C48_builds_partial",
    "Reveaal.C48_saved_again_partial",
    "Reveaal.C48_violated_initial"
   ],
   "note": "C48_builds_partial: a saved component is complete and can be built again, unless a constant overflows; bisimulation of the system and the compiled saved component, for every accepted system with ordinary location names, one initial location per component and no action called *; false for a component with several initial locations (witness): which of them is the start depends on the order of a hash map"
  },
  {
   "property": "C49",
   "status": "partial",
   "theorems": [
    "Reveaal.C49_guard_partial",
    "Reveaal.C49_updates_partial",
    "Reveaal.C49_violated_blank",
    "Reveaal.C49_violated_every_blank",
    "Reveaal.C49_violated_number",
    "Reveaal.C49_violated_update"
   ],
   "note": "no crash for guards with an expression and 32 bit numbers, and for updates without operators; false otherwise: blank guards, large numbers and updates that divide by zero panic"
  },
  {
   "property": "C50",
   "status": "partial",
   "theorems": [
    "Reveaal.C50_no_crash_partial",
    "Reveaal.C50_violated_or",
    "Reveaal.C50_violated_not",
    "Reveaal.C50_violated_number"
   ],
   "note": "no crash for every text unless an `@` is followed by `||`, `or`, `not`, `!` or a number over 2147483647; false for such texts: they panic"
  },
  {
   "property": "C51",
   "status": "partial",
   "theorems": [
    "Reveaal.C51_roundtrip_partial",
    "Reveaal.C51_violated_save",
    "Reveaal.C51_violated_not"
   ],
   "note": "for queries without save-as names whose state expressions are conjunctions; false otherwise: a save-as name is not printed so that it can be read, and `not` is printed in a form that panics"
  },
  {
   "property": "C52",
   "status": "partial",
   "theorems": [
    "Reveaal.C52_roundtrip_partial",
    "Reveaal.C52_constant_partial",
    "Reveaal.C52_violated_product",
    "Reveaal.C52_violated_difference",
    "Reveaal.C52_violated_sum"
   ],
   "note": "for updates with names or constant expressions; false otherwise: x=y*z is read as x=0, x=5-(y-3) as x=y-2, x=2*(3+y) as x=6+y"
  },
  {
   "property": "C53",
   "status": "partial",
   "theorems": [
    "Reveaal.C53_loaded_partial",
    "Reveaal.C53_exact_partial",
    "Reveaal.C53_violated_guard",
    "Reveaal.C53_violated_ints",
    "Reveaal.C53_violated_action",
    "Reveaal.C53_violated_ends"
   ],
   "note": "for components without integers, with guards that are conjunctions of disjunctions of comparisons and updates that assign names or numbers; false otherwise: disjunctions of conjunctions are regrouped, integers are lost, a? becomes a, and a dangling edge cannot be written (witnesses)"
  },
  {
   "property": "C54",
   "status": "partial",
   "theorems": [
    "Reveaal.C54_behaviour_partial",
    "Reveaal.C54_actions_partial",
    "Reveaal.C54_reach_partial",
    "Reveaal.C54_renumbered_partial",
    "Reveaal.C54_position_partial",
    "Reveaal.C54_loaded_partial",
    "Reveaal.C54_expression_partial",
    "Reveaal.C54_violated_written"
   ],
   "note": "for components whose guards are in the fragment of C01, whose clocks have different indices and which have at most one initial location; includes renumbering, the position of a component in a query, writing and loading a file, and the same expression without quotients at any position and in any number of dimensions. False for guards outside that fragment: the invariants x <= 5 and x - 3 - 2 <= 0 say the same, but components with them do not behave alike (C54_violated_written)"
  },
  {
   "property": "C55",
   "status": "partial",
   "theorems": [
    "Reveaal.C55_refuted_partial",
    "Reveaal.C55_exact_partial",
    "Reveaal.C55_violated_closed_target",
    "Reveaal.C55_violated_gap",
    "Reveaal.C55_violated_bounds"
   ],
   "note": "Proved for trees of compositions, conjunctions and quotients, with different clocks in different components and quotients, of components that compare clocks with literals only, assign at most one value to a clock on an edge, have upper-bound invariants and no edge whose guard holds in a reached state while its target cannot be entered: a failure that is not a precheck failure means that there is no refinement; together with C16 the verdict is exact. The full claim is false of the code: for a transition whose target can only be entered for part of the zone (C55_violated_closed_target), for an invariant with a gap (C55_violated_gap) and for a guard that compares a sum with a literal, where S <= S is rejected (C55_violated_bounds). For quotients, the second operand has no input with the name the quotient generates (see C71)."
  },
  {
   "property": "C56",
   "status": "partial",
   "theorems": [
    "Reveaal.next_named",
    "Reveaal.C56_offered_partial",
    "Reveaal.C56_violated_quotient"
   ],
   "note": "Every decision offered can be sent; the message names edges of component instances that leave the current location of the instance and carry the action (all systems). Without quotients these edges are exactly what is taken: all guards hold and the updates are theirs. With quotients the message can name edges whose guard does not hold (C56_violated_quotient)."
  },
  {
   "property": "C57",
   "status": "partial",
   "theorems": [
    "Reveaal.C57_start",
    "Reveaal.C57_step_partial",
    "Reveaal.C57_sound",
    "Reveaal.C57_complete_partial",
    "Reveaal.C57_violated_empty_action"
   ],
   "note": "For every recipe (quotients included), every sequence of requests and any build per request. False for an action named by the empty string: the decision is offered but choosing it panics (C57_violated_empty_action); the step and completeness theorems exclude it. The byte encoding of messages is not modelled."
  },
  {
   "property": "C58",
   "status": "partial",
   "theorems": [
    "Reveaal.state_described",
    "Reveaal.pair_described",
    "Reveaal.C58_reported",
    "Reveaal.C58_real_partial"
   ],
   "note": "Every report that carries a state can be made and sent and describes exactly the pair of the search, for all recipes, quotients included. That the pair is a real counterexample is proved for the systems of C55 (Sys.Ordinary); beyond them the verdict itself can be wrong (C55_violated_*), so no report could be right."
  },
  {
   "property": "C59",
   "status": "proved",
   "theorems": [
    "Reveaal.C59_determinism",
    "Reveaal.C59_local_consistency",
    "Reveaal.C59_consistency",
    "Reveaal.C59_refinement",
    "Reveaal.C59_reachability",
    "Reveaal.C59_steps_consistency",
    "Reveaal.C59_steps_refinement",
    "Reveaal.C59_steps_reachability",
    "Reveaal.C59_clock_analysis",
    "Reveaal.C59_compile",
    "Reveaal.C59_clock_reduction",
    "Reveaal.C59_get_component",
    "Reveaal.C59_prune"
   ],
   "note": "For every accepted system and all iteration orders that list the right actions. Assumes that for given bounds extrapolation has finitely many results (FiniteExtrapolation; a law of maximal-bound extrapolation, met by closureLib). The search for redundant clocks needs no assumption. Nor does saving. Pruning ends because its loop is never entered from a query (C29); whether the loop itself would always end (C69) is not claimed."
  },
  {
   "property": "C60",
   "status": "partial",
   "theorems": [
    "Reveaal.C60_single_partial",
    "Reveaal.C60_two_partial",
    "Reveaal.C60_numbered",
    "Reveaal.C60_numbered_two",
    "Reveaal.C60_violated_quotient_clock"
   ],
   "note": "For recipes numbered as getRecipes does (C60_numbered, C60_numbered_two), if guards that mention a clock reported as unused can never hold (otherwise false, C25), names and constants are as C24 asks, and no clocks are merged in systems with quotients (otherwise false: C60_violated_quotient_clock) nor the same group on both sides of a refinement. The witness: K || (T \\\\ S) where the quotient ends up with the clock of K."
  },
  {
   "property": "C61",
   "status": "partial",
   "theorems": [
    "Reveaal.C61_query",
    "Reveaal.C61_query_failure",
    "Reveaal.C61_composition",
    "Reveaal.C61_enabled",
    "Reveaal.C61_parts",
    "Reveaal.C61_needs_enabled",
    "Reveaal.C61_violated_quotient"
   ],
   "note": "What the query looks at: proved for every system. From the parts to the whole: proved for compositions of any number of systems with separate clocks; false for quotients, where the query looks at the operands only (C61_violated_quotient). Conjunctions are checked as a whole when they are built (C18). Accepting every input is needed (C61_needs_enabled); C27 is where components get it."
  },
  {
   "property": "C62",
   "status": "partial",
   "theorems": [
    "Reveaal.C62_system",
    "Reveaal.C62_queries_partial",
    "Reveaal.C62_every",
    "Reveaal.C62_violated_or",
    "Reveaal.C62_violated_not",
    "Reveaal.C62_violated_name",
    "Reveaal.C62_violated_minus"
   ],
   "note": "Proved for every written system, and for lists of queries of all kinds, where the states of reachability queries are conjunctions of comparisons of sums, locations and truth values, with parentheses and blanks anywhere. False, with witnesses: a disjunction or a negation in a state panics, so does a location of a component whose name begins with `not`, and a `-` or `->` right after a name is refused."
  },
  {
   "property": "C63",
   "status": "partial",
   "theorems": [
    "Reveaal.C63_quotient_partial",
    "Reveaal.C63_sound_partial",
    "Reveaal.C63_complete_partial",
    "Reveaal.C63_violated_stuck",
    "Reveaal.C63_example"
   ],
   "note": "Both directions for all systems the engine builds, if T, S and X are deterministic, S and X accept all their inputs, X never gets stuck, S has invariants convex in time, no transition of T or S assigns one clock twice with different values, X has no outputs unknown to both, and nobody knows the input the quotient adds for itself. That X must not get stuck is needed (C63_violated_stuck). Refinement is the concrete relation of Spec/Refinement, not the answer of the check (C16, C55 relate the two)."
  },
  {
   "property": "C64",
   "status": "partial",
   "theorems": [
    "Reveaal.C64_refinement_partial",
    "Reveaal.C64_exact_partial",
    "Reveaal.C64_system_partial",
    "Reveaal.C64_determinism_partial",
    "Reveaal.C64_text_partial",
    "Reveaal.C64_written_partial",
    "Reveaal.C64_several",
    "Reveaal.C64_refinement_ends_partial",
    "Reveaal.C64_checks_end_partial",
    "Reveaal.C64_unreachable_partial",
    "Reveaal.C64_reachability_partial",
    "Reveaal.C64_reachability_from_partial",
    "Reveaal.C64_goal_bounds",
    "Reveaal.C64_component_partial",
    "Reveaal.C64_component_builds_partial",
    "Reveaal.C64_settings_refinement_partial",
    "Reveaal.C64_settings_determinism_partial",
    "Reveaal.C64_settings_reachability_partial",
    "Reveaal.C64_violated_goal",
    "Reveaal.C64_violated_nowhere"
   ],
   "note": "The whole chain as modelled in Model/Execute, with and without clock reduction. Restrictions: guards mentioning a clock reported unused never hold (C25), clocks are not merged on both sides of a refinement nor in the system of another query, only one side has quotients; for C64_exact and C64_determinism quotients are in a line (no two side by side, none in the second operand of another, see C71). Reachability answers are right for systems whose components compare clocks with numbers and whose invariants are deadlines, and goals for whose zone the library finds the right bounds (C64_goal_bounds: goals that compare clocks with numbers); in a quotient they are about all but the two special locations, which no query can name; with a start state only if what it says about clocks stays true when time passes (C15). False for goals about the difference of two clocks (C64_violated_goal: a path to an unreachable goal is reported). The component of a get-component or prune query behaves like the system (C64_component_partial; pruning removes nothing, C29), for ordinary location names or a single component, and systems with an initial location; it can be built again (C64_component_builds_partial). Under the same restrictions two runs of a query with different settings for clock reduction and different hash orders are answered alike (C64_settings_*). Missing: consistency answers (the check is unsound, C18), crash-freedom: C64_violated_nowhere, a component without initial location crashes queries if clock reduction is on."
  },
  {
   "property": "C65",
   "status": "partial",
   "theorems": [
    "Reveaal.C65_session",
    "Reveaal.C65_independent",
    "Reveaal.C65_server",
    "Reveaal.C65_xml",
    "Reveaal.C65_reopened_partial",
    "Reveaal.C65_violated_own_queries",
    "Reveaal.C65_violated_reopened"
   ],
   "note": "C65_session, C65_independent and C65_server hold for all projects and queries. Reopening is proved for components that C53 can write faithfully and for names without declared inputs; it is false in general (C65_violated_reopened: a saved guard with a disjunction is regrouped when it is read back, so that a refinement that held before no longer does). Queries stored in the project are never run (C65_violated_own_queries: the empty query text, which asks for them, is refused by the argument parser). Files are modelled as JSON objects by name; the file system is not modelled."
  },
  {
   "property": "C66",
   "status": "partial",
   "theorems": [
    "Reveaal.C66_json_partial",
    "Reveaal.C66_xml_partial",
    "Reveaal.C66_unknown_partial",
    "Reveaal.C66_project_partial",
    "Reveaal.C66_accepts_partial",
    "Reveaal.C66_violated_indented",
    "Reveaal.C66_violated_line_ends",
    "Reveaal.C66_violated_commas",
    "Reveaal.C66_violated_panics"
   ],
   "note": "For texts of the form given in Spec/SystemDecls, with both readers. False otherwise: an indented IO line is ignored without a message (C66_violated_indented; five sample projects have such lines), the JSON reader cannot cope with carriage returns (C66_violated_line_ends), without a blank after the comma two components become one (C66_violated_commas), and many slips make the readers panic (C66_violated_panics). C66_accepts has the conditions of C27. Declarations of a component called system are not covered."
  },
  {
   "property": "C67",
   "status": "partial",
   "theorems": [
    "Reveaal.C67_component",
    "Reveaal.C67_names",
    "Reveaal.C67_project_partial",
    "Reveaal.C67_violated_comment",
    "Reveaal.C67_violated_empty_label",
    "Reveaal.C67_violated_no_sync",
    "Reveaal.C67_violated_names",
    "Reveaal.C67_violated_no_system"
   ],
   "note": "For elements as Spec/Xml describes them (the XML text itself, crate elementtree, is not modelled). Elsewhere the formats differ: the first label of a location is its invariant whatever its kind (C67_violated_comment), an empty label panics (C67_violated_empty_label), an edge without synchronisation becomes an output called the empty string (C67_violated_no_sync), all edges are called NotImplemented (C67_violated_names), and components without system declarations crash the reader although the server drops the declarations (C67_violated_no_system)."
  },
  {
   "property": "C68",
   "status": "partial",
   "theorems": [
    "Reveaal.C68_query_partial",
    "Reveaal.C68_refinement_partial",
    "Reveaal.C68_start_partial",
    "Reveaal.C68_step_partial",
    "Reveaal.C68_simulation_partial",
    "Reveaal.C68_violated_dropped",
    "Reveaal.C68_violated_stale",
    "Reveaal.C68_violated_blame",
    "Reveaal.C68_violated_declared"
   ],
   "note": "The whole chain, from the request to the meaning of the answer, for every history of the server with faithful hashes (C40_hash_needed: without them answers are wrong). The refinement theorem has the restrictions of C64, the simulation theorem those of C57. False: a JSON component that cannot be read is left out without a message (C68_violated_dropped), so that a query may be answered for an older version of the component (C68_violated_stale) or end in an internal error asking to report a bug (C68_violated_blame); inputs declared in an XML project are not enabled on the server (C68_violated_declared). Not modelled: protobuf encoding, JSON and XML texts."
  },
  {
   "property": "C69",
   "status": "partial",
   "theorems": [
    "Reveaal.C69_restriction_partial",
    "Reveaal.C69_consistent_partial",
    "Reveaal.C69_inputs_partial",
    "Reveaal.C69_safe_kept_partial",
    "Reveaal.C69_ends_partial",
    "Reveaal.C69_ends_documented_partial",
    "Reveaal.C69_violated_trap",
    "Reveaal.C69_violated_stuck",
    "Reveaal.C69_violated_late"
   ],
   "note": "The loop of the pruning algorithm, for every component whose clocks and locations have different names, with one initial location and no edge that assigns two values to one clock. Proved: only states and moves are removed, inconsistent locations are never entered, no input is refused, and every set of states in which the component can stay safely is kept (for invariants convex in time and no edges from universal locations; of predt only that it looks back in time). Exactness is false of the code: states are removed from which the component could save itself by an output (C69_violated_trap), and stuck states are left (C69_violated_stuck, C69_violated_late). The loop ends for components whose conditions compare clocks with literals (C69_ends_partial; of predt that it maps unions of clock regions to such unions, which follows from its documented meaning); open for conditions on differences of clocks."
  },
  {
   "property": "C70",
   "status": "partial",
   "theorems": [
    "Reveaal.C70_reachable_partial",
    "Reveaal.C70_verdict_partial",
    "Reveaal.C70_violated_difference"
   ],
   "note": "For systems (quotients included) whose guards and invariants compare clocks with constants and whose invariants stay true when time is turned back, with the extrapolation as in the zone library's laws and bounds that cover the goal's zone. False for guards that compare two clocks: extrapolation then adds states, and a path to an unreachable goal is reported (C70_violated_difference). That the search ends is C37 (fuel here)."
  },
  {
   "property": "C71",
   "status": "partial",
   "theorems": [
    "Reveaal.C13_quotient_partial",
    "Reveaal.C13_check",
    "Reveaal.C13_violated_quotient_input"
   ],
   "note": "For every pair of accepted systems with different clocks whose invariants are deadlines, in which no transition assigns one clock twice, and whose second operand has no input with the name the quotient generates for its own input. False without the last condition: an input of S called quotient_new_input0 makes the quotient nondeterministic, and the determinism check does not see it (C13_violated_quotient_input). C13_check lifts it to whole trees and the tool's own check."
  },
  {
   "property": "C72",
   "status": "partial",
   "theorems": [
    "Reveaal.C72_determinism_partial",
    "Reveaal.C72_consistency_partial",
    "Reveaal.C72_determinism_verdict",
    "Reveaal.C72_consistency_verdict",
    "Reveaal.C72_violated_state"
   ],
   "note": "For every recipe of accepted components with distinct clock names and at most 2^32 clocks. Proved: the report is made whenever the verdict is negative, it can be sent, and it is right about the instance, its location, the zone of the state the search stopped in, the action and its direction; consistency failures are as reported (consistent in the sense of the symbolic search, see C18). Of ambiguities only that two edges with the action can be taken somewhere in the reported location: that they can be taken in the reported state is false (C72_violated_state), since the check compares the edges without the zone of the state."
  },
  {
   "property": "C73",
   "status": "partial",
   "theorems": [
    "Reveaal.C73_component",
    "Reveaal.C73_composition_partial",
    "Reveaal.C73_conjunction_partial",
    "Reveaal.C73_quotient_partial",
    "Reveaal.C73_refinement_partial",
    "Reveaal.C73_message",
    "Reveaal.C73_text",
    "Reveaal.C73_violated_empty"
   ],
   "note": "Components: all. Systems: inputs and outputs of the operands disjoint, as for C08 (the generated inputs of quotients are not used in their operands). Refinement: the left side has an action; without one the report calls the empty set of outputs of the left side its inputs (C73_violated_empty)."
  },
  {
   "property": "C74",
   "status": "proved",
   "theorems": [
    "Reveaal.C74_system",
    "Reveaal.C74_refinement",
    "Reveaal.C74_refused"
   ],
   "note": "For names that can be written in queries; the name of a refinement is what follows the keyword refinement."
  },
  {
   "property": "C75",
   "status": "partial",
   "theorems": [
    "Reveaal.C75_path_partial",
    "Reveaal.C75_goal_partial",
    "Reveaal.C75_answer_partial",
    "Reveaal.C75_same_messages"
   ],
   "note": "C75_path_partial: every recipe of accepted components with distinct clock names and at most 2^32 clocks, invariants that are upper bounds on time (false otherwise, C14_violated_lower_bound_invariant); the execution ends in the requested location. C75_goal_partial, C75_answer_partial (from the query to the messages, starting with all clocks zero): also with the clock values of the goal, under the conditions of C70 (false otherwise, C70_violated_difference). For quotients the named edges leave the current locations and carry the action, but need not be the ones taken (C56_violated_quotient). Byte encoding is not modelled."
  },
  {
   "property": "C76",
   "status": "partial",
   "theorems": [
    "Reveaal.C76_verdict",
    "Reveaal.C76_response",
    "Reveaal.C76_refinement_partial",
    "Reveaal.C76_refinement_answered_partial",
    "Reveaal.C76_checks_answered_partial",
    "Reveaal.C76_component",
    "Reveaal.C76_component_answered_partial",
    "Reveaal.C76_reachability_answered_partial",
    "Reveaal.C76_success_partial"
   ],
   "note": "C76_verdict and C76_response: all queries, no conditions. That every answer can be sent: refinements whose left side has an action (a crash otherwise, C73_violated_empty) and without clashing generated inputs (as for C08); checks and components under the conditions of C64; reachability for invariants that are upper bounds on time. The texts of failures on the command line are C77; the layout of components and the bytes of messages are not modelled."
  },
  {
   "property": "C77",
   "status": "partial",
   "theorems": [
    "Reveaal.C77_total",
    "Reveaal.C77_verdict",
    "Reveaal.C77_results_partial",
    "Reveaal.C77_readable",
    "Reveaal.C77_path_readable",
    "Reveaal.C77_refinement_answered_partial",
    "Reveaal.C77_reachability_answered_partial",
    "Reveaal.C77_violated_names"
   ],
   "note": "C77_total and C77_verdict: all queries and results, no conditions. That the output determines the results: for names that are words (C77_violated_names shows two locations printed the same otherwise); C77_readable and C77_path_readable: systems of components with words as names only give such results; the answered theorems have the conditions of C76. Clock constraints, instance numbers, and the causes of failed consistency and determinism queries are not printed at all. The escaping of characters other than letters, digits and underscores by Debug is a parameter."
  },
  {
   "property": "C78",
   "status": "partial",
   "theorems": [
    "Reveaal.C78_component",
    "Reveaal.C78_compile_partial",
    "Reveaal.C78_checks_partial",
    "Reveaal.C78_refinement_partial",
    "Reveaal.C78_search_partial",
    "Reveaal.C78_reachability_partial",
    "Reveaal.C78_save",
    "Reveaal.C78_get_component_partial",
    "Reveaal.C78_prune_system",
    "Reveaal.C78_prune_partial",
    "Reveaal.C78_violated_rejected_guard",
    "Reveaal.C78_violated_difference",
    "Reveaal.C78_violated_lower_bound",
    "Reveaal.C78_violated_two_values",
    "Reveaal.C78_violated_negation",
    "Reveaal.C78_violated_lost_name",
    "Reveaal.C78_violated_prune",
    "Reveaal.C64_violated_nowhere"
   ],
   "note": "C78_component and C78_compile_partial: all components that are complete (guards and invariants of the fragment of C01) and all systems of them, for zones whose extrapolation has finitely many results (C59). A guard outside the fragment can crash: C78_violated_rejected_guard. C78_checks_partial and C78_refinement_partial: consistency, determinism and refinement queries under the conditions of C64; with clock reduction every component needs an initial location (a crash otherwise, C64_violated_nowhere). A refusal may be about the system with fewer clocks. C78_reachability_partial: reachability queries about systems whose components compare clocks with numbers, have deadlines as invariants and do not assign two values to a clock on one edge; each of these conditions is needed, as the path that was found is followed again and the program crashes if this fails: C78_violated_difference, C78_violated_lower_bound, C78_violated_two_values. Negated goals are read and crash: C78_violated_negation. C78_get_component_partial: get-component queries, if no clock name ends in a digit; otherwise a clock can lose its name and saving crashes (C78_violated_lost_name). C78_prune_partial: prune queries about systems that the consistency query does not find inconsistent (they crash otherwise, C78_violated_prune), if no action is input and output (C08) and location names contain no operators or brackets."
  },
  {
   "property": "C79",
   "status": "partial",
   "theorems": [
    "Reveaal.C79_composition_comm",
    "Reveaal.C79_composition_assoc",
    "Reveaal.C79_conjunction_comm",
    "Reveaal.C79_conjunction_assoc_partial",
    "Reveaal.C79_same_answers",
    "Reveaal.C79_composition_expr_partial",
    "Reveaal.C79_conjunction_expr_partial",
    "Reveaal.C79_composition_grouping_partial",
    "Reveaal.C79_conjunction_grouping_partial",
    "Reveaal.C79_refinement_answers_partial",
    "Reveaal.C79_refinement_answers_conjunction_partial",
    "Reveaal.C79_refinement_answers_right_partial",
    "Reveaal.C79_refinement_answers_right_conjunction_partial",
    "Reveaal.C79_determinism_answers_partial",
    "Reveaal.C79_violated_conjunction_order"
   ],
   "note": "All four laws for all accepted systems with different clocks, and that systems that are the same get the same true answers. For composition, and for swapping the sides of a conjunction, the other order is also accepted. Whether a conjunction of three operands is accepted depends on the order (C79_violated_conjunction_order: A && B && C is answered, A && C && B is refused), so regrouping assumes that both are accepted. These compare the two orders over the same numbering of clocks. The theorems _expr and _grouping are about the expressions of queries, where another order also numbers the clocks differently: for operands without quotients and components fit for clock reduction (C60) the two systems that the expressions mean are the same in all that is true of them. The theorems _answers: refinement queries that name A || B or A && B on one side get the same answer with the operands swapped, under the conditions of C64_exact_partial; determinism queries about expressions that name the same components, also with quotients in a line, get the same answer (C79_determinism_answers_partial). Missing: refinement answers for operands with quotients, and answers to consistency and reachability queries in the two orders."
  },
  {
   "property": "C80",
   "status": "partial",
   "theorems": [
    "Reveaal.C80_reflexive_partial",
    "Reveaal.C80_transitive_partial",
    "Reveaal.C80_conjunction_left_partial",
    "Reveaal.C80_conjunction_right_partial",
    "Reveaal.C80_conjunction_greatest_partial",
    "Reveaal.C80_composition_monotone_partial",
    "Reveaal.C80_quotient_partial",
    "Reveaal.C80_determinism_partial",
    "Reveaal.C80_determinism_named_partial",
    "Reveaal.C80_refused_partial",
    "Reveaal.C80_saved_partial"
   ],
   "note": "About the answers the tool gives to several refinement queries (and, in C80_determinism_partial, C80_determinism_named_partial and C80_refused_partial, determinism queries) over the same files, whatever clock numbers and dimensions the systems get in each query. For expressions without quotients (in C80_quotient_partial, the quotient of two such expressions; in C80_determinism_named_partial, with quotients in a line), under the conditions of C64_exact_partial for each query; answers that report a failed determinism or consistency check are excepted, because these checks are stronger than the properties (C17). Conjunction, composition and quotient under the conditions of C45, C47 and C63. C80_saved_partial: the component that get-component or prune answers with, stored under a name that no other component has, under the conditions of C64_component_partial and if it has the inputs and outputs of the system. Missing: other expressions with quotients, and the laws for operands for which they do not hold (witnesses at C45, C47 and C63)."
  }
 ]
}