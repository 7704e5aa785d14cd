{"id": "C01", "title": "Guard evaluation is exact", "statement": "Applying a guard or invariant expression to a set of clock valuations either reports an error or returns exactly the valuations of that set that satisfy the expression under ordinary arithmetic. An expression that is accepted is never evaluated with a different meaning.", "quantifier": "every guard expression the expression type can represent (any nesting of + - * / %, comparisons, && and ||), every declaration table, every set of valuations", "why_tests_cant": "Expressions nest without bound; the existing unit tests even pin one wrong value (test_get_indices_big_expr).", "anchors": ["src/EdgeEval/constraint_applyer.rs: apply_constraints_to_state, get_indices, replace_vars, get_const, get_clock_val", "src/ModelObjects/Expressions/arith_expression.rs: simplify, move_clock_and_vars, clone_expr, simplify_helper, ADif, AAdd, AMul, ADiv, AMod"]}
{"id": "C02", "title": "Boolean structure of guards is set algebra", "statement": "For accepted guards, && is intersection, || is union, true is identity, false is the empty set, and the result is always a subset of the set the guard was applied to.", "quantifier": "every Boolean nesting over any accepted comparisons, every set of valuations", "why_tests_cant": "Nesting depth and zones are unbounded.", "anchors": ["src/EdgeEval/constraint_applyer.rs: apply_constraints_to_state, apply_constraints_to_state_helper"]}
{"id": "C03", "title": "Guards generated from symbolic sets mean that set", "statement": "When the tool turns a symbolic set of valuations into a guard expression (for saved components, for input-enabling self loops, for pruned components), applying the generated guard to the universe gives back exactly that set; an absent guard means true.", "quantifier": "every disjunction of conjunctions of clock difference constraints, every clock naming that is injective and names every clock used", "why_tests_cant": "Unbounded number of constraints and clocks.", "anchors": ["src/ModelObjects/Expressions/bool_expression.rs: from_disjunction, from_conjunction, from_constraint"]}
{"id": "C04", "title": "Saving and reloading a guard preserves its meaning", "statement": "Writing a guard or invariant to the component file format and parsing it again yields an expression with the same meaning.", "quantifier": "every guard expression, in particular every guard the tool itself generates", "why_tests_cant": "Unbounded expressions; operator precedence and missing parentheses only show on particular nestings.", "anchors": ["src/ModelObjects/Expressions/bool_expression.rs: encode_expr", "src/ModelObjects/Expressions/arith_expression.rs: encode_expr", "src/DataReader/parse_edge.rs: parse_guard, PRATT_PARSER", "src/DataReader/grammars/edge_grammar.pest"]}
{"id": "C05", "title": "Taking a transition computes exactly the successor valuations", "statement": "Taking a transition from a symbolic state yields exactly the valuations obtained by picking a valuation of the state satisfying the guard, applying the updates in order, letting some time pass and landing inside the target invariant; the attempt is reported as impossible exactly when there is none.", "quantifier": "every symbolic state, every transition (any guard, update list, target)", "why_tests_cant": "Infinite valuation sets.", "anchors": ["src/ModelObjects/transition.rs: Transition::use_transition, use_transition_alt, apply_updates, apply_guards, move_locations", "src/EdgeEval/updater.rs: CompiledUpdate::apply"]}
{"id": "C06", "title": "The advertised enabling condition of a transition is exact", "statement": "The set of valuations a transition reports as allowed is exactly the set of valuations that satisfy its guard and from which performing its updates lands inside the target location's invariant.", "quantifier": "every transition: any guard, any list of updates (including several updates to one clock), any target", "why_tests_cant": "Quantifies over all valuations and all update lists.", "anchors": ["src/ModelObjects/transition.rs: get_allowed_federation, inverse_apply_updates", "src/EdgeEval/updater.rs: apply_as_guard, apply_as_free"]}
{"id": "C07", "title": "Simulation offers exactly the possible decisions and never crashes computing them", "statement": "For a simulation state the set of offered decisions is: one for every action and transition that some valuation of the state can take; each carries exactly the valuations that can take it and a non-empty destination. Computing them does not crash, and choosing an offered decision leads to the destination that was announced.", "quantifier": "every system, every state, every action", "why_tests_cant": "Quantifies over all states and transitions.", "anchors": ["src/Simulation/decision.rs: Decision::from_state_transition, get_decisions_from_state, get_initial_decisions, resolve"]}
{"id": "C08", "title": "Inputs and outputs of every system are disjoint", "statement": "Whenever a system expression built from components with composition, conjunction and quotient is accepted, no action is both an input and an output of the resulting system, and the alphabets are the ones the theory prescribes (composition: outputs united, inputs united minus the other side's outputs; conjunction: intersections; quotient: T inputs, S outputs and one fresh input / T outputs minus S outputs, S inputs minus T inputs).", "quantifier": "every system expression of any depth over any components", "why_tests_cant": "Unbounded nesting; name freshness in nested quotients.", "anchors": ["src/TransitionSystems/composition.rs: Composition::new_ts", "src/TransitionSystems/conjunction.rs: Conjunction::new_ts", "src/TransitionSystems/quotient.rs: Quotient::new_ts", "src/TransitionSystems/compiled_component.rs: compile_with_actions"]}
{"id": "C09", "title": "Composition moves are synchronised products", "statement": "A composed system can do an action from a state exactly when every participant that has the action in its alphabet can do it from its own state; the participants that move end in their own target, the others stay; guards and target invariants are conjoined.", "quantifier": "every pair of systems, every state, every action, every valuation", "why_tests_cant": "All systems and states.", "anchors": ["src/TransitionSystems/composition.rs: next_transitions", "src/ModelObjects/transition.rs: Transition::combinations", "src/TransitionSystems/location_tree.rs: LocationTree::compose"]}
{"id": "C10", "title": "Conjunction moves are joint moves", "statement": "A conjunction can do an action from a state exactly when both conjuncts can do it from theirs, ending in the pair of targets.", "quantifier": "every pair of systems, every state, every action, every valuation", "why_tests_cant": "All systems and states.", "anchors": ["src/TransitionSystems/conjunction.rs: next_transitions", "src/ModelObjects/transition.rs: Transition::combinations"]}
{"id": "C11", "title": "Exploring an accepted system never crashes on location or action lookups", "statement": "In every system accepted at construction, asking for the moves of any location reachable from the initial one, for any action of the alphabet, returns a list and does not panic, and every target is again a location of the system.", "quantifier": "every accepted system expression, every reachable location, every action of the alphabet", "why_tests_cant": "Unbounded nesting and exploration.", "anchors": ["src/TransitionSystems/compiled_component.rs: next_transitions", "src/TransitionSystems/composition.rs: next_transitions", "src/TransitionSystems/conjunction.rs: next_transitions", "src/TransitionSystems/quotient.rs: next_transitions", "src/TransitionSystems/common.rs"]}
{"id": "C12", "title": "A passed determinism check means the system is deterministic", "statement": "If the determinism check of a single system succeeds, then in every reachable state and for every action at most one transition is enabled.", "quantifier": "every system, every run of any length, every action", "why_tests_cant": "Infinite state space.", "anchors": ["src/System/local_consistency.rs: check_determinism, is_deterministic_helper"]}
{"id": "C13", "title": "Determinism of a composed system follows from the checks on its parts", "statement": "If both operands of a composition or conjunction are deterministic in every state, so is the composed system (which is how the tool decides it, by only checking the operands).", "quantifier": "every pair of systems, all states, all valuations", "why_tests_cant": "Infinite state space.", "anchors": ["src/TransitionSystems/common.rs: check_determinism", "src/TransitionSystems/composition.rs", "src/TransitionSystems/conjunction.rs"]}
{"id": "C14", "title": "A reported path is a real execution", "statement": "If a reachability query answers with a path, replaying its transitions from the start state is possible step by step and the run ends in the requested location.", "quantifier": "every system, every start and end state, every answer", "why_tests_cant": "Infinite state space; arbitrary exploration order.", "anchors": ["src/System/reachability.rs: reachability_search, find_path, make_path, take_transition"]}
{"id": "C15", "title": "An unreachable verdict is right", "statement": "If a reachability query answers 'unreachable' then no concrete timed run from a valuation of the start state reaches the requested location with a valuation of the requested zone.", "quantifier": "every system, start and end state, every run of any length and any delays", "why_tests_cant": "Negative statement over infinitely many runs.", "anchors": ["src/System/reachability.rs: reachability_search, is_trivially_unreachable, zone_subset_of_existing_zones, remove_existing_subsets_of_zone"]}
{"id": "C16", "title": "A positive refinement verdict is right", "statement": "If the refinement check of `refinement: S <= T` succeeds, S refines T: the alphabets fit, and there is a relation on concrete states that relates the initial states and in which every output of S is matched by T, every input of T is matched by S, and whenever S can let time pass so can T, ending in related states again. An action the other side does not have is ignored by it.", "quantifier": "every pair of systems, all reachable state pairs, all delays", "why_tests_cant": "Infinite state space.", "anchors": ["src/System/refine.rs: check_refinement, has_valid_state_pairs, try_create_new_state_pairs, build_state_pair, prepare_init_state", "src/DataTypes/statepair_list.rs"]}
{"id": "C17", "title": "Refinement preconditions", "statement": "`refinement: S <= T` is explored only if every input of S is an input of T, every output of T is an output of S, and no action is an input of one side and an output of the other; the precondition failures are reported exactly when one of these inclusions fails, and otherwise the verdict is that of the exploration.", "quantifier": "every pair of alphabets", "why_tests_cant": "All alphabets; order of iteration.", "anchors": ["src/System/refine.rs: check_preconditions, common_actions, extra_actions"]}
{"id": "C18", "title": "A consistency verdict is right", "statement": "The consistency check succeeds exactly when the system has a strategy that keeps every reachable state consistent: every input successor is consistent, and the state can either let time pass forever or has an output leading to a consistent state.", "quantifier": "every system, all reachable states", "why_tests_cant": "Infinite state space, recursion.", "anchors": ["src/System/local_consistency.rs: is_least_consistent, consistency_least_helper, is_fully_consistent, consistency_fully_helper"]}
{"id": "C19", "title": "Query verdicts do not depend on hash iteration order", "statement": "Running the same query twice gives the same verdict: the iteration order of the internal hash sets of actions never influences it.", "quantifier": "every system and every iteration order", "why_tests_cant": "Iteration order is randomised per process; a test sees one order.", "anchors": ["src/System/local_consistency.rs: consistency_least_helper", "src/System/save_component.rs: get_clock_map", "src/System/refine.rs"]}
{"id": "C20", "title": "Model cache returns what that user uploaded under that hash", "statement": "A cached lookup for a user and component hash returns a model only if the most recent model stored for that user was stored under the same hash, and then returns exactly that model; users never see each other's models; hash 0 is never served from the cache.", "quantifier": "every history of store and lookup operations by any number of users, in any interleaving", "why_tests_cant": "All histories and interleavings.", "anchors": ["src/DataReader/component_loader.rs: ModelCache::get_model, insert_model", "src/ProtobufServer/ecdar_requests/request_util.rs: get_or_insert_model"]}
{"id": "C21", "title": "Model cache stays within its capacity and keeps recently used users", "statement": "The cache never holds more than its configured number of entries, and a user's entry survives as long as fewer than capacity other users have stored or looked up models since that user's last operation.", "quantifier": "every history of operations, every capacity at least one", "why_tests_cant": "All histories.", "anchors": ["src/DataReader/component_loader.rs: ModelCache::new, insert_model, get_model"]}
{"id": "C22", "title": "User tokens are unique", "statement": "Two calls to obtain a user token return different tokens unless at least 2^32 tokens were issued in between.", "quantifier": "every number of calls, every interleaving", "why_tests_cant": "Needs billions of calls.", "anchors": ["src/ProtobufServer/ecdar_backend.rs: get_user_token"]}
{"id": "C23", "title": "Clock indices of a query never collide", "statement": "In every system built for a query, two different clocks (of the same or different components) have different indices, the quotient clock differs from all of them, and every index lies between 1 and the number of clocks.", "quantifier": "every system expression, every list of components with any declarations", "why_tests_cant": "Unbounded number of components; depends on declaration contents.", "anchors": ["src/System/extract_system_rep.rs: get_system_recipe, create_executable_query", "src/ModelObjects/component.rs: set_clock_indices, Declarations", "src/DataReader/serialization.rs: decode_declarations"]}
{"id": "C24", "title": "Clocks merged by clock reduction are equal in every reachable state", "statement": "Whenever the reduction reports two clocks as equivalent, the two clocks have the same value in every reachable valuation of the system.", "quantifier": "every system, every run of any length", "why_tests_cant": "Infinite runs.", "anchors": ["src/TransitionSystems/transition_system.rs: find_equivalent_clock_groups, find_edges_and_nodes, find_clock_redundancies"]}
{"id": "C25", "title": "Removing an unused clock does not change behaviour", "statement": "If the reduction reports a clock as unused and removes it, every guard and invariant of the component allows exactly the same valuations of the remaining clocks as before.", "quantifier": "every component, every clock reported as unused", "why_tests_cant": "All guards.", "anchors": ["src/ModelObjects/component.rs: remove_clock, replace_clock", "src/TransitionSystems/transition_system.rs: find_used_clocks", "src/System/extract_system_rep.rs: clock_reduction"]}
{"id": "C26", "title": "Clock renumbering is a faithful compression", "statement": "After clock reduction the remaining clocks are renumbered to consecutive indices starting at 1, two clocks have the same new index exactly when they had the same old index, and order is preserved.", "quantifier": "every list of components with any indices", "why_tests_cant": "All index assignments.", "anchors": ["src/System/extract_system_rep.rs: compress_component_decls"]}
{"id": "C27", "title": "Input enabling is complete", "statement": "After a component has been made input-enabled, in every location, for every input action and every valuation satisfying the location's invariant, some input edge on that action is enabled.", "quantifier": "every component, every location, every input, every valuation", "why_tests_cant": "All valuations and components.", "anchors": ["src/System/input_enabler.rs: make_input_enabled"]}
{"id": "C28", "title": "Input enabling only adds missing moves", "statement": "Making a component input-enabled keeps every existing edge unchanged, adds only self loops without updates, and an added self loop is never enabled together with an existing edge on the same input.", "quantifier": "every component, every location, every input, every valuation", "why_tests_cant": "All valuations and components.", "anchors": ["src/System/input_enabler.rs: make_input_enabled"]}
{"id": "C29", "title": "Pruning removes inconsistent behaviour", "statement": "The system returned by a prune query has no reachable location that was inconsistent in the input system.", "quantifier": "every system", "why_tests_cant": "All systems.", "anchors": ["src/System/pruning.rs: prune_system, prune, is_immediately_inconsistent", "src/System/save_component.rs: combine_components, get_locations_from_trees"]}
{"id": "C30", "title": "A saved component contains every reachable location and exactly the moves between them", "statement": "The component produced by get-component has one location for each location of the system reachable through any transitions, and from each of them exactly the system's non-trivially-false transitions as edges.", "quantifier": "every system with any number of locations", "why_tests_cant": "All systems.", "anchors": ["src/System/save_component.rs: combine_components, collect_all_edges_and_locations, collect_reachable_edges_and_locations, collect_edges_from_location"]}
{"id": "C31", "title": "Every clock of a saved component has its own name", "statement": "When component declarations are merged for a saved component, every clock of every part gets a name, and different clock indices get different names.", "quantifier": "every list of declarations, every iteration order of the declaration tables", "why_tests_cant": "Name clashes depend on user-chosen names and on hash order.", "anchors": ["src/System/save_component.rs: get_clock_map"]}
{"id": "C32", "title": "Printed system expressions parse back to the same system", "statement": "Printing a parsed system expression and parsing the text again gives the same expression.", "quantifier": "every system expression of any depth", "why_tests_cant": "Unbounded nesting.", "anchors": ["src/ModelObjects/Expressions/query_expression.rs: Display", "src/DataReader/parse_queries.rs: PRATT_PARSER", "src/DataReader/grammars/query_grammar.pest"]}
{"id": "C33", "title": "Locations survive the protocol round trip", "statement": "Sending a location of the current system to the client and receiving it back yields the same location.", "quantifier": "every system, every reachable location", "why_tests_cant": "Unbounded nesting.", "anchors": ["src/ProtobufServer/proto_conversions.rs: SpecificLocation", "src/System/specifics.rs: specific_location, SpecificLocation", "src/TransitionSystems/common.rs: construct_location_tree", "src/TransitionSystems/quotient.rs: construct_location_tree"]}
{"id": "C34", "title": "Zones survive the protocol round trip", "statement": "Sending a symbolic set of valuations to the client and receiving it back yields the same set.", "quantifier": "every system, every zone", "why_tests_cant": "All zones.", "anchors": ["src/System/specifics.rs: SpecificConstraint::from_constraint, SpecificConjunction, specific_clock_comp_map", "src/DataReader/proto_reader.rs: proto_constraint_to_constraint, determine_index"]}
{"id": "C35", "title": "Partial locations match exactly by wildcard", "statement": "A partially specified location in a query matches a location of the system exactly when every position specified by name has that name; unspecified positions match anything.", "quantifier": "every pair of location identifiers of any depth", "why_tests_cant": "Unbounded nesting.", "anchors": ["src/TransitionSystems/location_tree.rs: compare_partial_locations", "src/TransitionSystems/location_id.rs: is_partial_location"]}
{"id": "C36", "title": "Path explanations list one entry per component", "statement": "Splitting a path into per-component edge lists gives, for every component, exactly that component's edges along the path in order, and never crashes.", "quantifier": "every transition identifier, every path", "why_tests_cant": "Unbounded nesting.", "anchors": ["src/TransitionSystems/transition_id.rs: get_leaves, split_into_component_lists"]}
{"id": "C37", "title": "Extrapolation constants cover every constant a clock is compared with", "statement": "For every clock, the extrapolation bound reported by a component is at least every constant that clock is compared with in any guard or invariant.", "quantifier": "every component and every expression", "why_tests_cant": "All expressions.", "anchors": ["src/ModelObjects/Expressions/bool_expression.rs: get_max_constant", "src/ModelObjects/Expressions/arith_expression.rs: get_max_constant, get_constant", "src/ModelObjects/component.rs: get_max_bounds"]}
{"id": "C38", "title": "Exploration bookkeeping never loses a pending state pair", "statement": "During refinement exploration every state pair ever pushed is popped exactly once, in last-in first-out order, and membership queries answer true exactly when a pending pair with the same locations covers the asked zone.", "quantifier": "every sequence of push, pop and membership operations", "why_tests_cant": "All histories.", "anchors": ["src/DataTypes/statepair_list.rs: DepthFirstWaitingStateList, PassedStateListVec, PassedStateListFed"]}
{"id": "C39", "title": "Quotient moves follow the quotient rules and block nothing it should allow", "statement": "In a quotient T \\\\ S, every valuation has a move for every input action of S-output kind; a move on an action known to both is joint; the error location is entered only where S can do an output T cannot do or where T's invariant is violated.", "quantifier": "every pair of systems, every state, every valuation", "why_tests_cant": "All systems.", "anchors": ["src/TransitionSystems/quotient.rs: next_transitions, get_allowed_fed, get_location_invariant"]}
{"id": "C40", "title": "Server answers are total and faithful", "statement": "A query request is answered with an error status exactly when it does not contain exactly one query or the query cannot be built (except that a recipe failure is reported as the result), with the verdict otherwise; a crash inside a query becomes an error status of that request only.", "quantifier": "every request and every outcome of the query", "why_tests_cant": "All outcomes.", "anchors": ["src/ProtobufServer/ecdar_requests/send_query.rs: handle_send_query, parse_query", "src/ProtobufServer/ecdar_backend.rs: catch_unwind"]}
{"id": "C41", "title": "Declarations survive encode and decode", "statement": "Writing the clock declarations of a component and reading them back declares the same clock names with pairwise different indices 1..n.", "quantifier": "every list of clock names", "why_tests_cant": "All declarations.", "anchors": ["src/DataReader/serialization.rs: decode_declarations, encode_declarations"]}
{"id": "C42", "title": "Printed location identifiers identify locations", "statement": "Two different locations of the same system never print to the same text (used as location names in saved components and as keys in clock reduction).", "quantifier": "every system shape, every pair of locations", "why_tests_cant": "All names and nestings.", "anchors": ["src/TransitionSystems/location_id.rs: Display, get_unique_string", "src/System/save_component.rs", "src/TransitionSystems/transition_system.rs"]}
{"id": "C43", "title": "Constant arithmetic is evaluated correctly", "statement": "An expression without clocks is folded to the integer it denotes (truncated division and remainder), or evaluation stops with an error or panic; it is never folded to another value.", "quantifier": "every clock-free expression of any depth", "why_tests_cant": "Unbounded nesting.", "anchors": ["src/ModelObjects/Expressions/arith_expression.rs: simplify, simplify_helper, ADif, AAdd, AMul, ADiv, AMod"]}
{"id": "C44", "title": "XML projects are recognised", "statement": "A project path whose file name ends in .xml is loaded as an XML project, any other path as a JSON project.", "quantifier": "every path", "why_tests_cant": "All paths.", "anchors": ["src/DataReader/xml_parser.rs: is_xml_project", "src/DataReader/component_loader.rs: get_loader"]}
{"id": "C45", "title": "Refinement is a preorder and conjunction is a lower bound", "statement": "With respect to the refinement relation the tool decides: every system refines itself, refinement is transitive, and a conjunction refines each of its operands.", "quantifier": "every system", "why_tests_cant": "All systems.", "anchors": ["src/System/refine.rs", "src/TransitionSystems/conjunction.rs"]}
{"id": "C46", "title": "Query states name one location per component", "statement": "A state given in a reachability query is accepted only if it assigns at most one location to every component; an accepted state denotes the conjunction of its clock constraints at those locations.", "quantifier": "every state expression", "why_tests_cant": "Unbounded expressions.", "anchors": ["src/System/extract_state.rs: get_state, get_locations, create_zone, construct_location_tree"]}
{"id": "C47", "title": "Components can be replaced by refinements inside a composition", "statement": "If S is deterministic and refines T, T accepts every input at any time, and U knows none of the outputs that S has in addition to T's, then the composition S || U refines T || U.", "quantifier": "every S, T, U with different clocks", "why_tests_cant": "All systems and all timed runs of the compositions.", "anchors": ["src/TransitionSystems/composition.rs: next_transitions", "src/System/refine.rs: check_refinement"]}
{"id": "C48", "title": "A saved component behaves like the system it was saved from", "statement": "The component produced by get-component, loaded and compiled again, allows from its initial state exactly the same actions and delays, with the same clock values, as the system that was saved.", "quantifier": "every system, every timed run", "why_tests_cant": "All systems and all timed runs.", "anchors": ["src/System/save_component.rs: combine_components", "src/TransitionSystems/compiled_component.rs: compile", "src/ModelObjects/transition.rs: get_renamed_guard_expression, get_renamed_updates"]}
{"id": "C49", "title": "Reading guards and updates never crashes", "statement": "Reading any guard or update text from a model file yields an expression or an error message, never a crash.", "quantifier": "every text", "why_tests_cant": "Unbounded texts.", "anchors": ["src/DataReader/parse_edge.rs: parse_guard, parse_updates", "src/DataReader/serialization.rs: decode_guard, decode_update", "src/DataReader/grammars/edge_grammar.pest"]}
{"id": "C50", "title": "Reading queries never crashes", "statement": "Reading any query text yields a list of queries or an error message, never a crash.", "quantifier": "every text", "why_tests_cant": "Unbounded texts and nesting.", "anchors": ["src/DataReader/parse_queries.rs: parse_to_expression_tree, parse_bool_expr", "src/DataReader/grammars/query_grammar.pest"]}
{"id": "C51", "title": "Printed queries parse back to the same query", "statement": "Printing a parsed query, with its states and file names, and reading the text again gives the same query.", "quantifier": "every query of any size", "why_tests_cant": "Unbounded nesting.", "anchors": ["src/ModelObjects/Expressions/query_expression.rs: Display", "src/ModelObjects/Expressions/state_expression.rs: Display", "src/DataReader/parse_queries.rs: parse_to_expression_tree"]}
{"id": "C52", "title": "Reading an update keeps the value it assigns", "statement": "An update read from a model file assigns the value of the expression that was written; updates that are saved are read back unchanged.", "quantifier": "every arithmetic expression, every list of updates", "why_tests_cant": "Unbounded expressions.", "anchors": ["src/DataReader/parse_edge.rs: parse_updates, parse_update", "src/ModelObjects/Expressions/arith_expression.rs: simplify", "src/DataReader/serialization.rs: encode_opt_updates, decode_update"]}
{"id": "C53", "title": "A component written to a file and loaded again has the same meaning", "statement": "Writing a component to its JSON file and loading that file gives a component with the same clocks, locations and edges, whose guards and invariants hold for the same clock values and whose updates assign the same values.", "quantifier": "every component that was loaded or built, with any number of clocks, locations and edges and guards of any size", "why_tests_cant": "Unbounded components and expressions; the text of a guard loses its grouping only for some shapes.", "anchors": ["src/DataReader/serialization.rs: DummyComponent, DummyLocation, DummyEdge, encode_*, decode_*", "src/DataReader/json_writer.rs: component_to_json", "src/DataReader/json_reader.rs: read_json_component", "src/Simulation/graph_layout.rs: layout_dummy_component"]}
{"id": "C54", "title": "The numbers of clocks do not matter", "statement": "Two components that differ only in the internal numbers of their clocks, or in guards and invariants that are written differently but hold for the same clock values, behave alike: they allow the same delays and actions with the same clock values. So a component behaves alike whatever other components precede it in the query, and before and after it is written to a file and loaded again.", "quantifier": "every pair of components with the same meaning, every numbering of clocks, every run", "why_tests_cant": "Unbounded runs over real-valued clocks and every numbering.", "anchors": ["src/ModelObjects/component.rs: Component::set_clock_indices, Declarations", "src/TransitionSystems/compiled_component.rs: compile_with_actions, next_transitions", "src/EdgeEval/constraint_applyer.rs: apply_constraints_to_state", "src/EdgeEval/updater.rs: CompiledUpdate", "src/System/extract_system_rep.rs: get_system_recipe, compress_component_decls"]}
{"id": "C55", "title": "A negative refinement verdict is right", "statement": "If a refinement query `S <= T` is answered with 'does not refine' (and not because the determinism or consistency check of one of the two sides failed), then S really does not refine T: there is no relation between the concrete states (locations and clock values) of S and T that relates the initial states and in which outputs of S are matched by T, inputs of T are matched by S, and delays of S are allowed by T.", "quantifier": "all pairs of systems S, T, all iteration orders of the hash sets involved, all failures reported", "why_tests_cant": "The absence of a relation quantifies over all relations between infinitely many concrete states; the exploration works with zones, extrapolation and pruning, each of which can produce a failure that no concrete pair of states has.", "anchors": ["src/System/refine.rs:check_refinement", "src/System/refine.rs:has_valid_state_pairs", "src/System/refine.rs:build_state_pair", "src/System/executable_query.rs:RefinementExecutor"]}
{"id": "C56", "title": "Decisions offered in a simulation name the edges taken", "statement": "Every decision that is offered in a simulation can be sent to the client. The message names, with component name and instance number, edges of component instances that leave the current location of the instance, carry the action of the decision and are taken by it: their guards hold for the clock values of the decision and their updates are the ones done.", "quantifier": "every system description, every state reached in a simulation, every decision offered there", "why_tests_cant": "Systems of any shape and size and all states of a simulation; the names are reconstructed from a tree of transition ids that must match the tree of the system in every case.", "anchors": ["src/System/specifics.rs: SpecificDecision::from_decision, transition_id_to_specific_edges", "src/TransitionSystems/transition_id.rs: TransitionID", "src/Simulation/decision.rs: Decision::get_decisions_from_state", "src/ProtobufServer/proto_conversions.rs: From<SpecificDecision>"]}
{"id": "C57", "title": "A simulation over the protocol is the simulation of the system", "statement": "The server keeps nothing between the requests of a simulation: each step request carries the chosen decision and builds the system anew. Still, the decisions answered to a client describe exactly the decisions a simulation of the system itself offers at that point (same action, edges, and source and destination state), and every simulation of the system can be done through requests. No step on a decision that was offered crashes the server.", "quantifier": "every system description, every sequence of start and step requests of any length, every iteration order of the hash tables in every build", "why_tests_cant": "Histories of requests of any length, with decisions that went through messages, each served by a build with its own hash orders.", "anchors": ["src/ProtobufServer/ecdar_requests/simulation_requests.rs", "src/ProtobufServer/proto_conversions.rs", "src/Simulation/decision.rs: Decision::resolve"]}
{"id": "C58", "title": "The counterexample reported for a failed refinement is one", "statement": "When a refinement query fails with a state and an action, the report can be sent to the client, it names a pair of locations (one per component instance of both sides) with the clock constraints of that pair, and it is true: some clock values described by the report are ones both sides can get to together, and there the named action is one that one side performs and the other cannot answer, or one after which the left side can let time pass while the right side cannot. The action is called an input exactly if it is one of the inputs of the right side that was compared.", "quantifier": "all system descriptions on both sides, all hash orders, all failures reported", "why_tests_cant": "The report is a zone, infinitely many clock values, found by a search through zones that are extrapolated and merged; that it describes a real counterexample must hold for every pair of systems and every search.", "anchors": ["src/System/query_failures.rs: RefinementFailure::cannot_match, cuts_delays_solutions", "src/System/specifics.rs: SpecificState, SpecificClockVar", "src/System/refine.rs: has_valid_state_pairs", "src/ProtobufServer/proto_conversions.rs: From<RefinementFailure>"]}
{"id": "C59", "title": "Every query is answered: the searches end", "statement": "Building a system, checking it for determinism or consistency, checking a refinement, searching a path, saving a system as a component, pruning it, and finding and removing superfluous clocks all come to an end, for every system the tool accepts. For determinism, consistency and refinement the end is an answer: no crash and no error. The answer does not depend on how long the search was allowed to run.", "quantifier": "all components, systems built from them with composition, conjunction and quotient, all start and goal states, all hash orders", "why_tests_cant": "The searches go through zones, of which there are infinitely many; that the visited ones run out depends on extrapolation and on the bounds being the same for all zones of a location. Tests only show that the searches of some models end.", "anchors": ["src/TransitionSystems/transition_system.rs: check_determinism_helper", "src/System/local_consistency.rs: consistency_least_helper", "src/System/refine.rs: check_refinement", "src/System/reachability.rs: search_algorithm", "src/TransitionSystems/transition_system.rs: find_edges_and_nodes", "src/System/extract_system_rep.rs: compile, clock_reduce", "src/System/save_component.rs: combine_components", "src/System/pruning.rs: prune_system"]}
{"id": "C60", "title": "Removing superfluous clocks does not change the behaviour of a system", "statement": "Before a query is answered, clocks that are found to be unused or always equal to another one are taken out of the system. This succeeds, it never adds clocks, and the smaller system cannot be told apart from the original one: it has the same actions, it starts in a location of the same name, in corresponding states it allows the same delays and actions and gets to corresponding states, and remaining clocks keep their values. So the answers to consistency, determinism and refinement queries are those of the original systems.", "quantifier": "all systems built from components with composition, conjunction and quotient, one or two (the sides of a refinement), all clock values, delays and actions, all hash orders", "why_tests_cant": "The two systems have to agree in every one of infinitely many states and for every behaviour; reduction is a chain of analysis, deletion, replacement and renumbering, each of which is wrong in corner cases only.", "anchors": ["src/System/extract_system_rep.rs: clock_reduce, clock_reduce_single, filter_redundant_clocks, compress_component_decls, SystemRecipe::reduce_clocks, change_quotient", "src/ModelObjects/component.rs: remove_clock, replace_clock", "src/TransitionSystems/transition_system.rs: find_redundant_clocks"]}
{"id": "C61", "title": "A consistency query on a composed system tells the truth about the whole system", "statement": "The consistency query examines a composed system component by component: it succeeds exactly when every component passes the determinism and the consistency check by itself, and a failure is the failure of a component. This is enough for the whole: if the components are consistent (from the start on, whatever inputs arrive, each can wait forever or wait and then output without leaving its consistent states) and accept every input, the system built from them is consistent too, and accepts every input.", "quantifier": "every system tree, every pair of components with separate clocks, every reachable concrete state, all real delays, all input sequences, all iteration orders of the hash sets", "why_tests_cant": "Consistency is a game over infinitely many states with real-valued clocks; the claim quantifies over all components.", "anchors": ["src/TransitionSystems/common.rs: check_local_consistency, check_determinism", "src/TransitionSystems/quotient.rs: check_local_consistency", "src/TransitionSystems/transition_system.rs: precheck_sys_rep", "src/System/executable_query.rs: ConsistencyExecutor"]}
{"id": "C62", "title": "Systems and queries are read the way they are written", "statement": "Whatever system a user writes, with parentheses only where they want them, any blanks and line breaks, and either sign for the quotient, is read as the system they mean: conjunction binds most tightly, then composition, then quotient, and operators of the same strength group to the left. A text with several queries separated by semicolons is read as these queries, in this order, with the names to save under that were given. The states of a reachability query are read as the states that were written: sums from left to right, conjunctions as lists, parentheses wherever they are.", "quantifier": "every system expression of any depth with any placement of parentheses and blanks, every number of queries", "why_tests_cant": "Unbounded nesting and unboundedly many ways to combine operators, parentheses and blanks.", "anchors": ["src/DataReader/parse_queries.rs: PRATT, parse_system, parse_query, parse_to_expression_tree, parse_to_system_expr", "src/DataReader/grammars/query_grammar.pest"]}
{"id": "C63", "title": "A quotient answers what it is asked for: which parts complete S to a refinement of T", "statement": "Checking a part against a quotient is as good as checking the whole: a system X refines T \\\\ S if and only if S || X refines T. So a developer who has S and must build the rest of T can develop against T \\\\ S alone.", "quantifier": "every T, S and X built from components, compositions, conjunctions and quotients with separate clocks, every reachable concrete state, all real delays, all sequences of inputs and outputs", "why_tests_cant": "An equivalence of two refinements over infinite state spaces with real-valued clocks, for all triples of systems.", "anchors": ["src/TransitionSystems/quotient.rs: Quotient::new, next_transitions, get_initial_location", "src/TransitionSystems/composition.rs: Composition::new, next_transitions", "src/ModelObjects/Expressions/query_expression.rs: SystemExpression::Quotient", "src/System/refine.rs: check_refinement"]}
{"id": "C64", "title": "A query is answered about the systems it names", "statement": "From the text of a query to its answer, with clock reduction or without: the systems that are checked cannot be told apart from the ones the query names. If a refinement query is answered with yes the first system refines the second, and for systems simple enough also the other way round; if a determinism query is answered with yes the system is deterministic; a reachability query is answered with a path exactly if the system can get into a state as the goal says; the component a get-component or prune query answers with behaves like the system. Whether clock reduction is on, and the hash orders, do not change whether a refinement or determinism query is answered with yes or a reachability query with a path. Every such query comes to an end.", "quantifier": "all texts of queries, all component files, all expressions with composition, conjunction and quotient, the setting for clock reduction, all hash orders of the two compilations and the checks, all clock values and delays", "why_tests_cant": "The claim is about behaviours in infinitely many states, for all systems, through the whole chain of reading, loading, numbering, reducing, compiling and checking.", "anchors": ["src/System/extract_system_rep.rs: create_executable_query, get_system_recipe, clock_reduce", "src/System/executable_query.rs: RefinementExecutor::execute, ConsistencyExecutor::execute, DeterminismExecutor::execute", "src/ProtobufServer/ecdar_requests/send_query.rs: handle_send_query, parse_query", "src/DataReader/parse_queries.rs: parse_to_query"]}
{"id": "C65", "title": "A run of several queries sees the project and what was saved, nothing else", "statement": "In one run of the command line tool every query is answered about the components in the files of the project, input-enabled for the inputs the system declarations give them, except that components saved by earlier queries of the run replace those in the files. Without saving, the queries can be asked in any order and each is answered as if it were alone. A saved component is found, with the same meaning, when the project is opened again. On the server, queries never change the components of a request. Queries stored in a project can be run.", "quantifier": "all project files, system declarations, lists of queries of all kinds, settings and hash orders of each query, all intermediate states of the loader", "why_tests_cant": "The loader remembers components between queries; that this cannot be observed is a statement about all histories of queries.", "anchors": ["src/main.rs: start_using_cli, parse_args", "src/DataReader/component_loader.rs: JsonProjectLoader, XmlProjectLoader, ComponentContainer", "src/System/extract_system_rep.rs: create_executable_query, get_system_recipe", "src/System/executable_query.rs: GetComponentExecutor::execute, PruneExecutor::execute", "src/DataReader/json_writer.rs: component_to_json_file", "src/cli.rs: query_check"]}
{"id": "C66", "title": "System declarations are read as they are written", "statement": "The components of a project are the ones named in its system declarations, and the inputs and outputs of each are the actions listed for it, in the order of the lines; comments and empty lines do not matter, nor does the way lines end. Inputs and outputs of a component that is not named are refused. A component loaded from a project performs every input declared for it, in all its states.", "quantifier": "all system declarations: any number of components, of lines, of actions on a line, any names, comments and numbers of blanks between actions; the format of the project (JSON or XML); all component files and all states of the components", "why_tests_cant": "The texts are unbounded, and a line that is not understood is skipped without a message: only a statement about all texts shows which declarations have an effect.", "anchors": ["src/ModelObjects/system_declarations.rs: decode_sync_type, SystemDeclarations, SystemSpecification::get_component_inputs", "src/DataReader/xml_parser.rs: decode_sync_type", "src/DataReader/component_loader.rs: JsonProjectLoader::load_component, XmlProjectLoader::new_loader", "src/System/input_enabler.rs: make_input_enabled"]}
{"id": "C67", "title": "A component is the same in XML and in JSON", "statement": "An XML element and a JSON object that describe the same component (same name, declarations, locations, invariants, and edges with the same guards, updates, actions and directions) are read as the same component, except that the edges have no names; both are refused or both are accepted. A project in XML opens exactly if all its components can be loaded from the project in JSON, and then the same components are loaded from both under the same names. The names of edges make no difference to behaviour: the components have the same inputs and outputs, and perform the same actions with the same clock values.", "quantifier": "all components and projects: any number of components, locations, edges, labels of other kinds on edges, other elements and attributes; any texts as guards, invariants, updates and declarations, whether or not they can be parsed; both line ends; all states of the components", "why_tests_cant": "The two readers are separate code that must agree on every file, including which files they refuse; only a sample of files is kept in both formats.", "anchors": ["src/DataReader/xml_parser.rs: parse_xml, collect_locations, collect_edges, parse_declarations", "src/DataReader/serialization.rs: DummyComponent, decode_declarations", "src/DataReader/component_loader.rs: XmlProjectLoader::new_loader, JsonProjectLoader::load_component, parse_xml_components", "src/TransitionSystems/compiled_component.rs: CompiledComponent::compile"]}
{"id": "C68", "title": "The server answers about the components it is sent", "statement": "A query sent to the server is answered as it should be for the components that came with it: names in the query mean these components, in whatever mixture of JSON and XML they were sent, and the answer yes to a refinement query means that the one system refines the other. A request to start a simulation, and every request to take one of the decisions offered so far, is answered with the decisions of the system that was named, with the same clock values as if everything happened in one process. Other requests, of the same or of other users, have no influence, whether they succeed, fail or crash. A description that cannot be read is reported.", "quantifier": "all sequences of requests of any number of users and all interleavings of their steps, all components and texts of queries, all sizes of the cache, all orders in which hash maps are gone through, which may differ from request to request", "why_tests_cant": "The answer must not depend on the history of the server, on what is cached, on the interleaving or on hash orders; tests try a few requests on a fresh server.", "anchors": ["src/ProtobufServer/ecdar_requests/send_query.rs: send_query", "src/ProtobufServer/ecdar_requests/simulation_requests.rs: start_simulation, take_simulation_step", "src/ProtobufServer/ecdar_requests/request_util.rs: get_or_insert_model, simulation_info_to_transition_system", "src/DataReader/component_loader.rs: parse_components_if_some", "src/TransitionSystems/transition_system.rs: component_loader_to_transition_system"]}
{"id": "C69", "title": "Pruning a component removes the states that cannot avoid its inconsistent locations", "statement": "A component that is pruned keeps its inputs and outputs, and loses exactly the states from which getting into an inconsistent location cannot be avoided: every state and every move of the pruned component is one of the component; it never gets into an inconsistent location; in every state it still accepts every input the component accepts; states in which the component can stay without relying on its environment, without getting into an inconsistent location and without being stuck, are all kept; and in what is left time can pass or something can be done. Pruning comes to an end.", "quantifier": "all components with any number of locations, edges and clocks, all guards, invariants and updates, all reachable states and all moves from them; all orders in which locations are listed", "why_tests_cant": "The algorithm works backwards over sets of clock values until nothing changes; that it removes neither too much nor too little concerns all real clock values and all graphs of locations.", "anchors": ["src/System/pruning.rs: prune, handle_input, handle_output, remove_transition_if_unsat, process_source_location, predt_of_all_outputs, back_exploration_on_transition, add_inconsistent_parts_to_invariants, is_immediately_inconsistent"]}
{"id": "C70", "title": "A reachability verdict is right", "statement": "If a reachability query from the initial state is answered with a path, then the system has a real run, with some real delays, that takes exactly the transitions of the path in that order and ends in a state meeting the goal; and if it is answered that the goal is unreachable, there is no such run. So the verdict is yes exactly if a state meeting the goal is reachable.", "quantifier": "all systems built of any number of components, all goals (a location, fully or partially given, and a set of clock values), all start states, all search depths; all real clock values and delays", "why_tests_cant": "The search works with zones that are enlarged (extrapolated) to make it end; that the enlargement never makes an unreachable goal look reachable concerns all constants, all graphs and all real clock values.", "anchors": ["src/System/reachability.rs: find_path, reachability_search, reached_end_state, take_transition, make_path", "src/ModelObjects/state.rs: extrapolate_max_bounds_with_extra_bounds", "src/System/executable_query.rs: ReachabilityExecutor"]}
{"id": "C71", "title": "Determinism of a quotient follows from the checks on its parts", "statement": "If both operands of a quotient are deterministic in every state, so is the quotient, in all of its states: the tool only checks the operands, although the quotient adds a clock, an input, a universal and an error location, and lets time pass where its operands do not, so it gets into pairs of states its operands never get into together.", "quantifier": "every pair of systems, all states of the quotient, all valuations", "why_tests_cant": "Infinite state space; the states of a quotient include ones that are no states of its operands, so testing the operands says nothing about them.", "anchors": ["src/TransitionSystems/quotient.rs: check_determinism, next_transitions", "src/TransitionSystems/common.rs: check_determinism", "src/System/local_consistency.rs: is_deterministic"]}
{"id": "C72", "title": "A failed determinism or consistency check is reported with a state that shows it", "statement": "If a determinism or consistency query fails, the failure can always be described and sent. The message names a component instance of the query that is at fault, a location of it, the valuations of the state at which the check stopped and, for determinism, the action and whether it is an input; and in the reported state the failure shows: two edges with the action can be taken, or the location is inconsistent, or time cannot pass forever and no output leads to a consistent state, or there is no initial state.", "quantifier": "every system built from accepted components, every iteration order of actions and clocks, every failure the checks can end with", "why_tests_cant": "Which state is reported depends on the system and on the iteration order of hash sets; a report that is wrong for one of infinitely many systems misleads the user without any error.", "anchors": ["src/System/local_consistency.rs: is_deterministic_helper, consistency_least_helper", "src/System/query_failures.rs: DeterminismFailure, ConsistencyFailure", "src/System/specifics.rs: SpecificState", "src/ProtobufServer/proto_conversions.rs: From<DeterminismFailure>, From<ConsistencyFailure>"]}
{"id": "C73", "title": "Refused actions are reported as they are", "statement": "A component, composition, conjunction, quotient or refinement is refused because of its actions exactly if a failure about actions is reported. The failure names two systems, says for each whether its inputs or its outputs are meant, lists exactly these actions of the system, and these two sets do clash in the way the failure says: they have an action in common where they must not, or the first has an action the second lacks.", "quantifier": "every component and every pair of systems", "why_tests_cant": "The sets are worked out from the actions alone, after the fact, by trying out which of the four sets it was; every combination of sets would have to be tried.", "anchors": ["src/System/query_failures.rs: ActionFailure, not_disjoint, not_disjoint_IO, not_subset, to_precondition", "src/TransitionSystems/compiled_component.rs: compile", "src/TransitionSystems/composition.rs: new", "src/TransitionSystems/conjunction.rs: new_ts", "src/TransitionSystems/quotient.rs: new_ts", "src/System/refine.rs: check_preconditions", "src/ProtobufServer/proto_conversions.rs: From<ActionFailure>"]}
{"id": "C74", "title": "The names of systems in answers are the systems the user wrote", "statement": "The name that answers show for a system, a refinement or a refused system is a text that the tool itself reads back, in a query, as exactly the system, refinement or refused combination the user wrote: same components, same operators, same grouping, only without the ids of the components, and whether or not clocks were reduced.", "quantifier": "every system expression, every loader that gives components the names they are asked for", "why_tests_cant": "Operators nest to any depth and have precedences; a missing pair of parentheses changes the meaning only for some nestings.", "anchors": ["src/TransitionSystems/transition_system.rs: to_string, get_composition_type", "src/TransitionSystems/compiled_component.rs: to_string", "src/System/query_failures.rs: System::from, System::from_composite_system", "src/DataReader/grammars/query_grammar.pest"]}
{"id": "C75", "title": "The path sent in answer to a reachability query tells a real execution", "statement": "If a reachability query is answered with a path, the path can be described, printed and sent. Read by a client it tells an execution of the system the query names: starting in the start state, with suitable delays, the edges it names (component name, instance number, edge id) are taken one after the other with the actions it tells; right before each step the component instances and clock values are as the source says, right after it as the destination says, and the execution ends in a state as the goal says. The valuations in the description are exactly those of the path that was found.", "quantifier": "every system description, every start and goal, every path that is found, every iteration order of hash tables", "why_tests_cant": "Paths of any length through systems of any shape, over all real clock values; the path is replayed after a search that worked with enlarged zones, and then translated into names by walking a tree of transition ids.", "anchors": ["src/System/reachability.rs: find_specific_path, make_path", "src/System/specifics.rs: SpecificPath::from_path, SpecificDecision::from_decision, SpecificState::from_state", "src/ProtobufServer/proto_conversions.rs: From<SpecificPath> for ReachabilityPath, From<SpecificDecision> for Decision", "src/ProtobufServer/ecdar_requests/send_query.rs: From<QueryResult> for Result"]}
{"id": "C76", "title": "Every answer is sent and printed as what it is", "statement": "Whenever a query has an answer, the answer can be reported, printed and sent, and a client reads it as what it is. The response is of the kind the query asks for: success or its own kind of failure for refinement, consistency and determinism queries, a path or the failure for reachability queries, a component for the others. It means yes, and `satisfied` is printed, exactly if the answer is yes; a `success` for the text of a refinement query means that the first system refines the second. The failure of a refinement carries the name of the refinement, is about the right side of it, and tells the cause: the component instance that fails a check, the actions that do not fit, the side without initial location, that the sides cannot start together, or the pair of states at which an action is not answered. A component that is sent has all the ends of its edges.", "quantifier": "every query text, every set of loaded components, every failure of every check, with and without clock reduction, every iteration order of hash tables", "why_tests_cant": "There are ten places where a failure is turned into a message, each reached only by particular systems, and several of them unwrap or assert; a test of one failure says nothing about the others.", "anchors": ["src/System/executable_query.rs: print_result, execute", "src/System/extract_system_rep.rs: create_executable_query", "src/System/query_failures.rs: RefinementFailure, QueryResult", "src/ProtobufServer/ecdar_requests/send_query.rs: handle_send_query, From<QueryResult> for ProtobufResult", "src/ProtobufServer/proto_conversions.rs: From<RefinementFailure>", "src/System/refine.rs: check_refinement, check_preconditions"]}
{"id": "C77", "title": "What is printed on the command line tells the verdict, the cause of a failed refinement and the path", "statement": "Every result of a query can be printed, and it is of the kind the query asks for. The line printed for a query names the query and says satisfied, not satisfied, or that a component was created, exactly as the result is. For components whose names of components, locations and actions are words, the output of a run determines the results: equal outputs for the same queries mean, query by query, the same verdict, for a refinement that fails the same cause (the action and the pair of locations, the side without initial state, the failing component and its locations, or the actions that do not fit), and for a path the same actions and locations in the same order.", "quantifier": "every list of queries, every result, every set of components with words as names, every iteration order of hash tables, every path length", "why_tests_cant": "The text joins names and separators without escaping; that no two different failures or paths are printed the same concerns all pairs of results, and a test compares one output with one expected string.", "anchors": ["src/main.rs: start_using_cli", "src/System/executable_query.rs: QueryResult::print_result, print_path", "src/System/query_failures.rs: Display of RefinementFailure, ConsistencyFailure, DeterminismFailure, ActionFailure, ActionSet", "src/System/specifics.rs: Display of SpecificState, SpecificLocation"]}
{"id": "C78", "title": "Building a system and answering a query about it never crash", "statement": "For components nothing of which is missing (edges start and end at locations of the component, location names differ, updates set declared clocks to numbers, guards and invariants are of the kind the tool reads exactly), building the system of a query ends and either gives the system or is refused with an error message, and a refusal has one of the documented reasons: an action that is input and output, an output of both sides of a composition, clashing directions in a conjunction or quotient, an inconsistent conjunction, or an operand of a quotient that fails its check. Refinement, consistency, determinism, reachability, get-component and prune queries about such systems are then answered, with and without clock reduction. The only crash is an overflow of the constants in a guard.", "quantifier": "every component, every system expression built from them, every query of these kinds, every iteration order of hash tables, with and without clock reduction", "why_tests_cant": "The code unwraps, expects and indexes in some hundred places; that none of them is reached concerns all shapes of systems and all searches through their state spaces, and also that every search ends.", "anchors": ["src/TransitionSystems/compiled_component.rs: compile, compile_with_actions", "src/TransitionSystems/composition.rs: Composition::new", "src/TransitionSystems/conjunction.rs: Conjunction::new", "src/TransitionSystems/quotient.rs: Quotient::new", "src/TransitionSystems/transition_system.rs: compile, find_redundant_clocks", "src/System/extract_system_rep.rs: create_executable_query, clock_reduction", "src/System/executable_query.rs: execute"]}
{"id": "C79", "title": "The order and the grouping of the operands of a composition or conjunction do not matter", "statement": "`A || B` and `B || A`, `(A || B) || C` and `A || (B || C)`, `A && B` and `B && A`, `(A && B) && C` and `A && (B && C)` are the same systems: one is accepted exactly if the other is, they have the same inputs and outputs, and step by step they allow the same clock values, the same delays, the same actions with the same clock values afterwards, and the same choices. So they refine the same systems, are refined by the same systems, and one is consistent or deterministic exactly if the other is.", "quantifier": "every pair or triple of systems the tool builds (components, compositions, conjunctions and quotients nested in any way) with different clocks, every location, clock valuation and action", "why_tests_cant": "The moves of a product are computed from three lists of actions and by pairing transitions, and every level of nesting does it again; a test compares two orders for one system, not all executions of all systems.", "anchors": ["src/TransitionSystems/composition.rs: Composition::new, next_transitions", "src/TransitionSystems/conjunction.rs: Conjunction::new, next_transitions", "src/TransitionSystems/location_tree.rs: compose", "src/ModelObjects/transition.rs: combinations", "src/ModelObjects/location.rs: LocationType::combine"]}
{"id": "C80", "title": "Answers to different queries hang together", "statement": "The answers to the queries of one request agree with each other, as those of an order must: `refinement: A <= A` is answered with yes; if `A <= B` and `B <= C` are answered with yes, so is `A <= C`; `A && B <= A` and `A && B <= B` are answered with yes; if `C <= A` and `C <= B` are answered with yes, so is `C <= A && B`; if `A <= B` is answered with yes, so is `A || C <= B || C`; `X <= T \\\\ S` is answered with yes exactly if `S || X <= T` is. `determinism: A || B` and `determinism: A && B` are answered with yes exactly if `determinism: A` and `determinism: B` are. `refinement: A <= B` is refused because `A` is not deterministic exactly if `determinism: A` is answered with no. If `get-component: A save-as N` or `prune: A save-as N` is answered with a component, then `N <= A` and `A <= N` are answered with yes. Each query is answered on its own, with its own clock numbers and its own number of clocks.", "quantifier": "every set of components, every choice of system expressions over them, every query history over these expressions", "why_tests_cant": "The same expression is compiled to different systems in different queries, and each answer is computed by its own exploration; a test compares a few answers, not the answers to all related queries for all components.", "anchors": ["src/System/extract_system_rep.rs: create_executable_query, get_system_recipe", "src/System/executable_query.rs: ExecutableQuery::execute", "src/System/refine.rs: check_refinement", "src/TransitionSystems/composition.rs: Composition::new", "src/TransitionSystems/conjunction.rs: Conjunction::new"]}
