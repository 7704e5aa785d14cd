# Formal model of Ecdar/Reveaal in Lean 4 — design

The code under `/repo` is read as text; nothing of it is compiled or run. This
file says what is modelled, how each property of `properties.jsonl` is proved,
and what has to be trusted.

## 1. Approach

* One Lean module per source area under `lean/Verif/Model/`; every definition
  cites the file and lines it models and names each simplification.
* Specifications (what a reader of the English property expects) live in
  `lean/Verif/Spec/`, and do not use the helpers of the model.
* Property theorems live in `lean/Verif/Props/`, one file per group, named
  `Cxx_...`. Helper lemmas live in `lean/Verif/Lemmas/` or beside the model.
* A `Result::Err` is data, a panic is an explicit error value
  (`Except Fail α`, `Fail.err` / `Fail.panic`), `&mut` becomes a returned value,
  unbounded searches take a fuel argument and return `none` when it runs out;
  the theorems are about runs that return, for every amount of fuel.
* Hash sets and hash maps are lists in iteration order. Theorems quantify over
  every list, hence over every iteration order.

### Clock zones (crate `edbm`, not in the repository)

Federations come from the external crate `edbm`. They are modelled by a type
class `ZoneLib` (`Verif/Zones.lean`): a type `F` of federations, a denotation
`den : F → Set Val` into sets of clock valuations (`Nat → ℝ`, clock 0 is the
constant 0, clocks are non-negative), the operations Reveaal calls, and the laws
each operation is assumed to satisfy. Every theorem that mentions zones holds
for every implementation satisfying the laws. `Verif/ZoneImpl.lean` gives a
concrete, computable implementation (finite unions of conjunctions of difference
constraints, quantifier elimination by Fourier–Motzkin) and proves all laws, so
the assumptions are satisfiable, the model is executable, and counterexample
witnesses are evaluated by the kernel.

`extrapolate_max_bounds` is assumed to return a superset of its argument, each
of whose points agrees with some point of the argument on every clock up to that
clock's bound (both above the bound otherwise). That is the textbook contract of
max-bound extrapolation.

`minimal_constraints` is assumed to give constraints whose conjunction (per disjunct) is
exactly the zone, with indices below the dimension and never comparing clock 0 with
itself. `subset_eq`, `equals`, `is_empty`, `has_intersection` are assumed to be exact.

Termination (C59) assumes in addition that, for given bounds, extrapolation has finitely
many results (`FiniteExtrapolation`, `Verif/ZoneFinite.lean`); the same file turns every
implementation of the class into one that has this property, so it can be met.

## 2. Plan and result per property

"false" means the code does not have the property: a witness theorem `Cxx_violated_…`
proves its negation on a concrete program of the model, and the `_partial` theorems say
for which programs it holds. The theorems of each property, with their status and what
is missing, are in `MANIFEST.json`; their axioms in `AXIOMS.md`.

| Property | Model | Proof and result |
|---|---|---|
| C01 | `Expr`: arithmetic expressions, `simplify`, `get_indices`, `apply_constraints_to_state` | false for nested differences, products, division by zero; exact for the linear shapes the code handles, by case analysis of the normal form |
| C02 | same | induction on the Boolean expression |
| C03 | `from_disjunction/conjunction/constraint` | induction on constraint lists, on top of C01's fragment |
| C04 | `EdgeText`: `encode_expr`, grammar and Pratt parser, on characters | false (no parentheses are written); proved for guards nested as the parser nests them |
| C05, C06 | `Transition` | set algebra on `den`; C06 false for conflicting updates of one clock |
| C07 | `Decision` | corollary of C05/C06; false for ambiguous actions and conflicting updates |
| C08 | `System`: `new` of the three operators | induction on the system; false for nested quotients (generated action name) |
| C09, C10 | `next_transitions`, `combinations`, `compose` | unfolding to a product of concrete steps |
| C11 | `next_transitions` with panics | invariant: the location tree has the shape of the system |
| C12, C13 | `LocalConsistency.is_deterministic` | invariant of the passed list; product argument; C12 false for conflicting updates |
| C14, C15 | `Reachability` | invariant of frontier and visited zones; simulation for extrapolation; both false for particular invariants / start states |
| C16, C17 | `Refine.checkRefinement` | the passed list is a refinement relation; false for the unchecked initial delay, disjunctive invariants, conflicting updates |
| C18 | `consistency_least_helper` | failures are right about the symbolic states searched; false in general (three witnesses) |
| C19 | all checks, iteration orders as parameters | determinism and path verdicts do not depend on them; consistency and refinement verdicts do (witnesses) |
| C20, C21 | `Cache` over an LRU list | refinement to a history specification, induction over operations |
| C22 | `fetch_add` on 32 bits | modular arithmetic |
| C23 | `Recipe` construction | induction on the expression; false for duplicate declarations |
| C24 | `ClockReduction.find_equivalent_clock_groups` | partition refinement invariant along runs; false when location names are ambiguous |
| C25 | `remove_clock`, `find_used_clocks` | bisimulation up to the clock; false for `x >= 0` |
| C26 | `compress_component_decls` | list induction |
| C27, C28 | `InputEnabler` | set algebra plus C03; false for wildcard edges and conflicting updates |
| C29 | `Pruning` | false: pruning never removes anything, proved for all systems |
| C30 | `SaveComponent.combine_components` | worklist invariant; false for ambiguous names |
| C31 | `get_clock_map` | list induction; false for names that end in digits |
| C32 | `QueryText`: system expressions to characters and back | Pratt parser round trip |
| C33, C34 | `Protocol`: locations and zones to messages and back | structural induction |
| C35 | `compare_partial_locations` | structural induction; false for special locations |
| C36 | `TransPath.split_into_component_lists`, `get_leaves` | false when a component idles or with a quotient; partial |
| C37 | `get_max_constant`, `get_max_bounds` | false for sums, differences, named constants; partial for direct comparisons |
| C38 | waiting and passed lists | refinement to a stack |
| C39 | quotient rules | case analysis; false for conflicting updates |
| C40 | `Server`: handlers, `catch_unwind`, any interleaving | invariant over server events; crashes are values; the called code may behave differently in each request (hash orders) |
| C41, C42 | declarations, printed location names | list induction, string injectivity; false for unusual names |
| C43 | constant folding | structural induction; false for division by zero |
| C44 | `Loader`: path suffix test | false: only a file called `.xml` is recognised |
| C45, C47 | refinement relation on transition systems | relational composition; C45 false in parts, see manifest |
| C46 | `StateQuery` | structural induction; false for disjunctions and unknown components |
| C48 | saved component, compiled again | bisimulation with the original system; the saved component is complete, as generated guards are of the fragment of C01 and the saved locations are closed under transitions, so it can be built again; false for components with several initial locations (`C48_violated_initial`) |
| C49, C50 | readers of guards, updates, queries | structural induction over the grammar; false (blank guards, large numbers, `or`, `not`, division by zero) |
| C51, C52 | printers and readers of queries and updates | round trip; false for save-as names, `not`, products |
| C53 | `Serialization`: component to file model and back | composition of C04, C41, C52; false for disjunctions, integers, names with `?` |
| C54 | meaning of components up to clock numbers | bisimulation through a renaming of valuations; false for invariants that are misread (C01), two ways of writing the same (`C54_violated_written`) |
| C55 | `Refine`, failures | every failure is a real pair of states (induction over the search); false for three kinds of systems |
| C56, C57 | `Protocol`: decisions as messages, simulation requests | induction over the history of requests, any build per request; both false in a corner |
| C58 | `Failures`: reports of refinement failures | C34 for pairs, and the search invariant of C55 |
| C59 | all searches of the model; `Spec/Termination` | a measure: the locations with extrapolated zones not yet visited, a finite set; for the clock analysis lexicographic with the number of known locations waiting; for saving the locations not collected; pruning ends because its loop is not entered (C29) |
| C60 | `ClockReduction`: recipes, their reduction and renumbering; `Spec/Reduction` | a relation between the trees of both systems (`Alike`, `Reduced*`), a bisimulation up to the values of the remaining clocks; C24 and C25 give the values of merged and unused clocks. False for a clock merged with that of a quotient |
| C61 | `LocalConsistency`: `precheck`, `checkDet`, `checkCons`; `Spec/Consistency` | induction on the tree for what the query looks at; for compositions the pairs of consistent states form a consistent set: the side with the shorter wait moves first and the other hears it. False for quotients |
| C62 | `Text`, `QueryText`; `Spec/SystemText`, `Spec/StateText` (what users write: signs, parentheses, blanks) | the Pratt parser applied to the operators outside parentheses gives the tree whose operands are no weaker; induction on nesting |
| C63 | `System`: `newQuotientUnchecked`, `newComposition`, `next`; `Spec/Refinement`, `Spec/Quotient`, `Spec/Adjoint` | the rules of C39 seen from the operands; sound: an X that never gets stuck is never related to the error location, so T follows every output and delay of S; complete: states where S has left its invariant for good and the universal location are added to the relation |
| C64 | `Execute`: from the text of a query to its answer, for every query; `Spec/Reduction`, `Spec/Refinement`, `Spec/StateQuery` | C62 for the text, C60 for clock reduction (carried over to all hypotheses of C13, C16, C55), C59 for termination; reachability: C46 for the states, C15 and C70 for the search; components that are answered: C48 and C29. Two runs with different settings are both compared with what the query means. False for goals that compare clocks, and for systems without initial location: clock reduction crashes on them |
| C65 | `Project`: the loaders of folders, XML files and requests with their memory, system declarations, a run of several queries; `Spec/Project` | induction over the queries: what a loader gives for a name does not change when components are loaded. False: stored queries are never run, a saved component may change its meaning when the project is opened again |
| C66 | `SystemDecls`: both readers of system declarations; `Spec/SystemDecls`: what is declared and the texts that declare it | splitting a text on separators, filtering commutes with splitting, induction over lines and actions; with C65 and C27 for projects. False: indented lines are ignored, carriage returns, missing blanks, panics |
| C67 | `Xml`: elements, the reader of XML projects, its use by the command line and the server; `Spec/Xml`: when an element and a JSON object describe the same component | both readers agree label by label and line by line (induction over the lists, filtering commutes with splitting); compiling commutes with forgetting names of edges; with C65, C66 for projects. False: comments taken for invariants, empty labels, edges without synchronisation |
| C68 | `Serve`: the handlers of `Server` with the models of reading components, queries and simulations put in; `Spec/Serve`: the components of a request | C40 reduces every answer to that of a fresh server; the components map is described by reverse induction; recipes and answers depend on the components only (induction over the expression); then C62, C64 for queries and C57 for simulations. False: unreadable components are dropped |
| C69 | `PruneLoop`: the worklist of pruning with every step of it; `Spec/Prune`: sets of states in which a system can stay safely | invariant of the loop: the parts found so far, and for each edge of the component what is left of it; every step is described by the valuations it adds; a set that is safe stays apart from the parts, by induction over the loop; then the compiled results are compared location by location. The loop ends: for conditions without differences of clocks all sets it computes are unions of clock regions (`Lemmas/Regions`), and a location is put on the stack at most once for each of the finitely many such sets. False: too much and too little is removed, with witnesses |
| C70 | `Reachability` as for C14, C15; `Spec/Path`: runs along given transitions | every sub-path kept by the search stands for real runs: each valuation of its zone is equivalent, up to the largest constants of the system and the goal, to one reached by a real run along the same transitions (induction over the search, with the region lemmas of C37 and C55); a plain goal cannot tell the two apart. The converse is C15. False for guards that compare clocks |
| C71 | the rules of `System.next` for quotients, `checkDet` | every state of the quotient is a pair of states the operands can be in after letting time pass (deadlines closed towards the past), so two of its transitions that overlap come from the same transitions of the operands; case analysis on pairs of rules. False if S has an input with the generated name |
| C72 | `Answer`: what is reported about failed checks; `Spec/FailureReport` | invariant of both searches: the states they stop in are reached in the way the search moves; C33/C34 for the description of one instance; from two overlapping transitions back to two edges. False for ambiguous states: the edges are compared without the zone |
| C73 | `Answer`: action failures; `Spec/ActionReport` | case analysis over the four sets of actions; by disjointness (C08) the set that is found is the one that was meant. False if the left side of a refinement has no actions |
| C74 | `Answer`: names of systems; `Spec/Names` | the printed name is one of the texts of `Spec/SystemText` for the recipe, so C62 reads it back; clock reduction keeps the shape of recipes |
| C75 | `Response`: descriptions of decisions and paths, their messages; `Spec/PathReport`: executions as a client reads them | the run of C14/C70 goes through the zones of the replayed decisions (induction over the run, zones closed under delays); the descriptions of states and edges by C58 and C56 |
| C76 | `Respond`: results with their reports, the executors that make them, `print_result`, the messages of all failures, from the text of a query to the result in the response; `Spec/Respond`: verdicts, kinds, what a refinement failure tells | case analysis over the stages of the refinement check, each stage by C72, C73, C58; the verdict by comparing the executors with those of C64; components: every target of a collected location is collected (C30) |
| C77 | `Print`: the `Display` texts of locations, states and failures, `print_path`, the loop of the command line; `Spec/Print`: when two results are the same as far as is printed, names that are words | unique decomposition of the output: each piece ends at the first character its names cannot contain; false for other names (witness: locations `p||B.q` and `q||B.y`) |
| C78 | all constructors of `System`, `ClockReduction`, `Execute`; `Spec/Build`: complete components, the reasons for a refusal, `EndsWell` (ends with a result, a justified refusal or an overflow) | every partial lookup of the constructors succeeds for complete components (induction on the system); the checks end by C59, the clock analysis finds an initial location and its instructions can be carried out by C60; reduced components stay complete; reachability: every path the search finds can be followed again without extrapolation, as valuations that the bounds do not distinguish take the same transitions (as in C70, but without waiting at the start); false for guards outside C01 (witness `x - y + 3 <= 5`), for components without initial location, and for reachability with difference guards, lower bounds as invariants, two values for one clock, and negated goals; get-component: reduction leaves no gap in the numbers of the clocks, so every clock that a minimal constraint mentions is a clock of the system and has a name (C31); false for clock names that end in a digit, and for pruning inconsistent systems; pruning of other systems: no location is listed twice, the component of all locations is complete (C48) and the loop is not entered (C29) |
| C79 | `System`: constructors and moves of composition and conjunction; `Spec/Algebra`: when two systems are the same | the moves of a product are the joint moves of the participants (C09, C10), also when a participant is itself a product; choices are counted: a product has as many enabled transitions as there are pairs; proved for composition; the order of three conjuncts decides whether the system is accepted (witness), so regrouping of conjunctions is proved for accepted systems; for expressions: the recipe at another first clock is the recipe with its clocks shifted, so swapping operands is a renumbering, which cannot be told apart (C60, C64), followed by the swap of systems; determinism answers depend on the components that are named only (C80) |
| C80 | `QueryRun`, `Recipe`, `System`, `Refine`: whole refinement and determinism queries over the same files | each answer is exact (C64); the same expression in another query is a renumbering that cannot be told apart (C54, C60), so refinements found in different dimensions compose; the laws of refinement (C45, C47, C63) then relate the answers; for determinism queries, the clashes the check finds in a component (C19) are carried over to the renumbered component; a saved component behaves like its system (C64_component) and so refines it and is refined by it |

Properties that need the runtime (actual thread scheduling, gRPC transport, memory, time
limits) are modelled at the level of atomic operations only, so nothing is claimed about
them.

## 3. What is modelled

| Source (under `/repo/src`) | Model | Left out |
|---|---|---|
| `ModelObjects/Expressions/{arith,bool}_expression.rs`, `EdgeEval/*` | `Expr`, `EdgeText` | `clone_expr`, `Debug` output; release-build wrap-around of `i32` (overflow is a panic) |
| `ModelObjects/{component,edge,location,state,statepair,transition}.rs` | `System`, `Transition`, `Expr`, `Refine` | colours, positions, `Display` |
| `ModelObjects/system_declarations.rs` | `SystemDecls` | `add_component` (not used) |
| `ModelObjects/Expressions/{query,state}_expression.rs`, `ModelObjects/queries.rs` | `QueryText`, `StateQuery` | comments of queries |
| `DataReader/{parse_edge,parse_queries}.rs`, `grammars/*.pest` | `Text`, `EdgeText`, `QueryText` | error messages of the parser |
| `DataReader/serialization.rs` | `Serialization`, `Recipe` (declarations) | JSON text itself (serde_json), layout coordinates |
| `DataReader/component_loader.rs` | `Cache`, `Loader`, `Project`, `Serve` | the file system: a folder is a function from names to JSON objects |
| `DataReader/xml_parser.rs` | `Xml` (components), `SystemDecls` (system declarations), `Loader` (path test) | the XML text itself (crate elementtree) |
| `DataReader/proto_reader.rs`, `ProtobufServer/proto_conversions.rs` | `Protocol`, `Failures`, `Answer`, `Response`, `Respond` | byte encoding (prost) |
| `ProtobufServer/{ecdar_backend,ecdar_requests/*}.rs` | `Server`, `Serve`, `Cache`, `Protocol`, `Respond` | thread pool, transport |
| `Simulation/decision.rs` | `Decision` | — |
| `Simulation/graph_layout.rs` | — | not modelled |
| `System/{refine,local_consistency,reachability}.rs`, `DataTypes/statepair_list.rs` | `Refine`, `LocalConsistency`, `Reachability` | logging |
| `System/{extract_system_rep,executable_query}.rs` | `Recipe`, `ClockReduction`, `Execute`, `Respond`, `Print`, `Server` (results) | saving the result of a query |
| `System/{extract_state,input_enabler,save_component,pruning,specifics}.rs` | `StateQuery`, `InputEnabler`, `SaveComponent`, `Pruning`, `PruneLoop`, `Protocol`, `Failures` | `predt` of the zone library is a parameter of the worklist of pruning; the worklist is proved to be never run from a query (C29) |
| `System/query_failures.rs` | `Refine`, `LocalConsistency`, `Failures`, `Answer`, `Respond`, `Print` | texts of precondition and model failures other than `Display` of refinement failures |
| `TransitionSystems/*` | `System`, `Transition`, `TransPath`, `ClockReduction` | `Display` except printed locations |
| `cli.rs`, `main.rs`, `logging.rs`, `build.rs` | path choice in `Loader`, the loop over queries and the choice of queries in `Project`, the printing of results in `Print` | arguments other than the query, logging |

Simplifications, also noted at the definitions:

* Searches take fuel and answer `Fail.fuel` when it runs out. Theorems are about runs
  that return. Nothing is claimed about termination, except where a theorem says so.
* `usize` arithmetic does not wrap; `i32` arithmetic panics on overflow.
* A hash table is a list in its iteration order; where one is rebuilt the new order is
  a parameter (`Orders`, `HashOrder`, `CompileEnv`), so theorems hold for every order.
* The LRU cache of the `lru` crate is a list in order of use.
* `pest`: ordered choice, repetition and implicit whitespace on lists of characters.
* `std::path` on Unix, for `Path::ends_with`.

## 4. Trusted base

* Lean 4.33.0's kernel. Axioms: `propext`, `Classical.choice`, `Quot.sound` only, per
  theorem in `AXIOMS.md`. No `sorry`, `native_decide` or `bv_decide`, no own axioms.
* The reading of `/repo` recorded in the citations (`tools/cites.py` lists definitions
  without one; there are none).
* The laws of `ZoneLib` as a description of `edbm` (section 1). They are consistent:
  `ZoneImpl.lean` proves them of an implementation.
* Rust's standard library and the crates `pest`, `lru`, `serde_json`, `prost`, `tonic`
  behave as described in the comments that name them.

## 5. Tests of the theorems

`seeded/LOG.jsonl` records edits of the model that a realistic bug would make, and the
theorems that then fail. `tools/mutate.py` runs them on a copy.
