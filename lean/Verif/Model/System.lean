import Verif.Model.Transition

/-!
# Components and composed transition systems

Models `src/ModelObjects/component.rs` (the parts used by compilation), `src/ModelObjects/edge.rs`,
`src/ModelObjects/location.rs`, `src/TransitionSystems/compiled_component.rs`,
`src/TransitionSystems/common.rs`, `src/TransitionSystems/composition.rs`,
`src/TransitionSystems/conjunction.rs` and `src/TransitionSystems/quotient.rs`.
The trait object `Box<dyn TransitionSystem>` has four implementations in the code base; the model is
the inductive type `Sys` with one constructor for each.
-/

namespace Reveaal
open ZoneLib

/-- parse_edge.rs `struct Update`: assignment of an expression to a variable -/
structure Update where
  var : String
  expr : Arith
deriving DecidableEq, Repr

/-- location.rs:25-39 `struct Location` -/
structure Location where
  id : String
  invariant : Option BoolE
  ty : LocType
  urgency : String
deriving DecidableEq, Repr

/-- edge.rs:119-122 `enum SyncType` -/
inductive SyncType where
  | input
  | output
deriving DecidableEq, Repr

/-- edge.rs:14-39 `struct Edge`; `action` is the field `sync`. -/
structure Edge where
  id : String
  source : String
  target : String
  sync : SyncType
  guard : Option BoolE
  update : Option (List Update)
  action : String
deriving DecidableEq, Repr

/-- component.rs:17-28 `struct Component` (without the unused `special_id`) -/
structure Component where
  name : String
  decls : Decls
  locations : List Location
  edges : List Edge
deriving DecidableEq, Repr

/-- `unwrap`/`expect` on a `Result`: an error becomes a panic. (std, e.g. location_tree.rs:58) -/
def orPanic {α : Type} : Res α → Res α
  | .ok a => .ok a
  | .error (.err m) => .error (.panic m)
  | .error (.panic m) => .error (.panic m)
  | .error .fuel => .error .fuel

/-- A hash set built by insertion: duplicates are dropped. (std, e.g. compiled_component.rs:102-103) -/
def mkSet (l : List String) : List String := l.foldl (fun acc a => if a ∈ acc then acc else acc ++ [a]) []

/-- `HashSet::union` collected into a set (std, e.g. composition.rs:33) -/
def setUnion (a b : List String) : List String := a ++ b.filter fun x => !(a.contains x)
/-- `HashSet::difference` collected (std, e.g. composition.rs:69) -/
def setDiff (a b : List String) : List String := a.filter fun x => !(b.contains x)
/-- `HashSet::intersection` collected (std, e.g. composition.rs:71) -/
def setInter (a b : List String) : List String := a.filter fun x => b.contains x
/-- `HashSet::is_disjoint` (std, e.g. composition.rs:39) -/
def setDisjoint (a b : List String) : Bool := a.all fun x => !(b.contains x)

/-- `HashMap::insert`: replaces the value of an existing key. (std, e.g. save_component.rs:85) -/
def hmInsert {K V : Type} [DecidableEq K] (k : K) (v : V) : List (K × V) → List (K × V)
  | [] => [(k, v)]
  | (k', v') :: m => if k' = k then (k, v) :: m else (k', v') :: hmInsert k v m

namespace Component

/-- component.rs:64-72 `get_specific_actions` -/
def specificActions (c : Component) (s : SyncType) : List String :=
  mkSet ((c.edges.filter fun e => decide (e.sync = s) && decide (e.action ≠ "*")).map (·.action))

/-- component.rs:42-54 `get_location_by_name`: panics unless exactly one location has the name. -/
def locationByName (c : Component) (name : String) : Res Location :=
  match c.locations.filter fun l => l.id = name with
  | [l] => .ok l
  | _ => .error (.panic "Unable to retrieve location based on id")

/-- `Iterator::max().unwrap_or_default()` (std, used at component.rs:85, 91) -/
def maxOrZero (l : List Int) : Int :=
  match l with
  | [] => 0
  | x :: xs => xs.foldl max x

/-- component.rs:79-92, the bound of one clock -/
def clockBound (c : Component) (name : String) (clock : Nat) : Int :=
  max (maxOrZero (c.edges.filterMap fun e => e.guard.map fun g => g.getMaxConstant clock name))
    (maxOrZero (c.locations.filterMap fun l => l.invariant.map fun i => i.getMaxConstant clock name))

/-- component.rs:76-100 `get_max_bounds`; lower and upper bound are always set to the same constant,
so one table is kept. -/
def maxBounds (c : Component) : Bounds :=
  c.decls.clocks.foldl
    (fun b p => Bounds.add b fun i => if i = p.2 then some (c.clockBound p.1 p.2) else none) Bounds.new

end Component

variable {F : Type} [ZoneLib F]

/-- location_tree.rs:56-62, the invariant of a location -/
def Location.compileInv (d : Decls) (l : Location) : Res (Option F) :=
  match l.invariant with
  | some e => do
    let fed ← orPanic (applyConstraints d e univ)
    .ok (some fed)
  | none => .ok none

/-- location_tree.rs:55-70 `LocationTree::simple` -/
def LocTree.simple (d : Decls) (l : Location) : Res (LocTree F) := do
  let inv ← l.compileInv d
  .ok (.leaf (.simple l.id) inv l.ty)

/-- updater.rs:29-49 `CompiledUpdate::compile` -/
def CUpdate.compile (d : Decls) (u : Update) : Res CUpdate :=
  match u.expr with
  | .int v =>
    match d.clockIndex u.var with
    | some i => .ok ⟨i, v⟩
    | none => .error (.panic "Attempting to compile an update with a clock which is not in decl")
  | _ => .error (.panic "Should not be able to assign in update")

/-- edge.rs:74-80 `apply_guard` -/
def Edge.applyGuard (e : Edge) (d : Decls) (fed : F) : Res F :=
  match e.guard with
  | some g => orPanic (applyConstraints d g fed)
  | none => .ok fed

/-- transition.rs:42-48, compiling the updates of an edge -/
def Edge.compileUpdates (e : Edge) (d : Decls) : Res (List CUpdate) :=
  match e.update with
  | some us => us.mapM (CUpdate.compile d)
  | none => .ok []

/-- transition.rs:32-54 `from_component_and_edge` -/
def Transition.fromEdge (c : Component) (e : Edge) : Res (Transition F) := do
  let l ← c.locationByName e.target
  let target ← LocTree.simple c.decls l
  let updates ← e.compileUpdates c.decls
  let guard ← e.applyGuard c.decls univ
  .ok ⟨.simple e.id, guard, target, updates⟩

/-- compiled_component.rs:28-36 `struct CompiledComponent` with the `ComponentInfo` (20-25) inlined.
`locations` is in the iteration order of the hash map. -/
structure CompComp (F : Type) where
  name : String
  compId : Nat
  decls : Decls
  bounds : Bounds
  inputs : List String
  outputs : List String
  locations : List (LocId × LocTree F)
  edges : List (LocId × List (String × Transition F))
  initial : Option (LocTree F)

namespace CompComp

/-- compiled_component.rs:51-58, collecting the locations into a hash map -/
def buildLocations (d : Decls) (ls : List Location) : Res (List (LocId × LocTree F)) := do
  let trees ← ls.mapM (LocTree.simple d)
  .ok (trees.foldl (fun m t => hmInsert t.id t m) [])

/-- compiled_component.rs:72-75, `get_mut(&id).unwrap().push(..)` -/
def pushEdge (id : LocId) (x : String × Transition F) :
    List (LocId × List (String × Transition F)) → Res (List (LocId × List (String × Transition F)))
  | [] => .error (.panic "called `Option::unwrap()` on a `None` value")
  | (k, es) :: m =>
    if k = id then .ok ((k, es ++ [x]) :: m)
    else do
      let m' ← pushEdge id x m
      .ok ((k, es) :: m')

/-- compiled_component.rs:69-76, the loop over the edges -/
def buildEdges (c : Component) : List Edge → List (LocId × List (String × Transition F)) →
    Res (List (LocId × List (String × Transition F)))
  | [], m => .ok m
  | e :: es, m => do
    let t ← Transition.fromEdge c e
    let m ← pushEdge (.simple e.source) (e.action, t) m
    buildEdges c es m

/-- compiled_component.rs:39-95 `compile_with_actions`.  `order` is the iteration order of the hash map
of locations (it decides which of several initial locations is used). -/
def compileWith (order : List (LocId × LocTree F) → List (LocId × LocTree F)) (c : Component)
    (inputs outputs : List String) (id : Nat) : Res (CompComp F) :=
  if !(setDisjoint inputs outputs) then .error (.err "inputs and outputs are not disjoint") else do
  let locs ← buildLocations c.decls c.locations
  let locs := order locs
  let edges ← buildEdges c c.edges (locs.map fun p => (p.1, []))
  let initial := (locs.map (·.2)).find? fun l => l.isInitial
  .ok ⟨c.name, id, c.decls, c.maxBounds, inputs, outputs, locs, edges, initial⟩

/-- compiled_component.rs:97-107 `compile` -/
def compile (order : List (LocId × LocTree F) → List (LocId × LocTree F)) (c : Component) (id : Nat) :
    Res (CompComp F) :=
  compileWith order c (c.specificActions .input) (c.specificActions .output) id

/-- compiled_component.rs:127-149 `next_transitions` -/
def next (c : CompComp F) (loc : LocTree F) (a : String) : Res (List (Transition F)) :=
  if !(c.inputs.contains a || c.outputs.contains a) then
    .error (.panic "assertion failed: self.actions_contain(action)")
  else if loc.isUniversal then .ok [Transition.withoutId loc]
  else if loc.isInconsistent && c.inputs.contains a then .ok [Transition.withoutId loc]
  else
    match c.edges.lookup loc.id with
    | none => .error (.panic "called `Option::unwrap()` on a `None` value")
    | some es => .ok ((es.filter fun e => e.1 = a).map (·.2))

end CompComp

/-- The four implementations of `TransitionSystem`: compiled_component.rs:28-36, composition.rs:12-22,
conjunction.rs:14-20, quotient.rs:20-32 (the universal and inconsistent locations and the declarations
of a quotient are functions of its clock index). -/
inductive Sys (F : Type) where
  | comp (c : CompComp F)
  | composition (l r : Sys F) (inputs outputs leftUnique rightUnique common : List String)
  | conjunction (l r : Sys F) (inputs outputs : List String)
  | quotient (t s : Sys F) (inputs outputs : List String) (clock : Nat) (newInput : String)

namespace Sys

/-- `get_input_actions` of the four implementations
(compiled_component.rs:151, composition.rs:127, conjunction.rs:108, quotient.rs:320) -/
def inputs : Sys F → List String
  | comp c => c.inputs
  | composition _ _ i _ _ _ _ => i
  | conjunction _ _ i _ => i
  | quotient _ _ i _ _ _ => i

/-- `get_output_actions` of the four implementations
(compiled_component.rs:155, composition.rs:131, conjunction.rs:112, quotient.rs:323) -/
def outputs : Sys F → List String
  | comp c => c.outputs
  | composition _ _ _ o _ _ _ => o
  | conjunction _ _ _ o => o
  | quotient _ _ _ o _ _ => o

/-- `actions_contain` (transition_system.rs:102) -/
def hasAction (s : Sys F) (a : String) : Bool := s.inputs.contains a || s.outputs.contains a

/-- transition_system.rs:64-74 `next_transitions_if_available`, given the `next_transitions` -/
def ifAvailable (s : Sys F) (a : String) (r : Res (List (Transition F))) :
    Res (List (Transition F)) :=
  if s.hasAction a then r else .ok []

/-- quotient.rs:408-411 `get_allowed_fed` -/
def allowedFed (loc : LocTree F) (t : Transition F) : F := loc.applyInvariants t.allowed

/-- quotient.rs:161-318, the moves of a quotient from a pair of locations `lt`, `ls`, given the moves
`tt`, `st` of the two sides (empty for an unknown action) -/
def quotientMoves (T S : Sys F) (clock : Nat) (newInput : String) (lt ls : LocTree F) (a : String)
    (tt st : List (Transition F)) : List (Transition F) :=
  let r1 := if S.hasAction a && T.hasAction a then
      tt.flatMap fun t => st.map fun s =>
        (⟨.quotient [t.id] [s.id], inter (allowedFed lt t) (allowedFed ls s),
          LocTree.merge t.target s.target, t.updates ++ s.updates⟩ : Transition F)
    else []
  let r2 := if S.hasAction a && !(T.hasAction a) then
      st.map fun s =>
        (⟨.quotient [] [s.id], allowedFed ls s, LocTree.merge lt s.target, s.updates⟩ : Transition F)
    else []
  let r35 := if S.outputs.contains a then
      let gs := st.foldl (fun g s => append g (allowedFed ls s)) empty
      [(⟨.quotient [] (st.map (·.id)), append (inverse (ls.applyInvariants univ)) (inverse gs),
        LocTree.universalLoc, []⟩ : Transition F)]
    else [⟨.none, inverse (ls.applyInvariants univ), LocTree.universalLoc, []⟩]
  let r6 := if S.outputs.contains a && T.outputs.contains a then
      let gt := tt.foldl (fun g t => append g (allowedFed lt t)) empty
      st.map fun s =>
        (⟨.quotient (tt.map (·.id)) [s.id], inter (allowedFed ls s) (inverse gt),
          LocTree.errorLoc clock, [⟨clock, 0⟩]⟩ : Transition F)
    else []
  let r7 := if a = newInput then
      [(⟨.none, inter (inverse lt.invOrUniv) ls.invOrUniv, LocTree.errorLoc clock, [⟨clock, 0⟩]⟩ :
        Transition F)]
    else []
  let r8 := if T.hasAction a && !(S.hasAction a) then
      tt.map fun t =>
        (⟨.quotient [t.id] [], ls.applyInvariants (allowedFed lt t), LocTree.merge t.target ls,
          t.updates⟩ : Transition F)
    else []
  (r1 ++ r2 ++ r35 ++ r6 ++ r7 ++ r8).filter fun t => !(isEmpty t.guard)

/-- `next_transitions`: compiled_component.rs:127-149, composition.rs:78-109, conjunction.rs:76-86,
quotient.rs:137-319 -/
def next : Sys F → LocTree F → String → Res (List (Transition F))
  | comp c, loc, a => c.next loc a
  | composition l r i o lu ru common, loc, a =>
    if !(i.contains a || o.contains a) then
      .error (.panic "assertion failed: self.actions_contain(action)")
    else do
    let ll ← loc.getLeft
    let lr ← loc.getRight
    if common.contains a then do
      let left ← l.next ll a
      let right ← r.next lr a
      Transition.combinations left right .composition
    else if lu.contains a then do
      let left ← l.next ll a
      Transition.combinations left [Transition.withoutId lr] .composition
    else if ru.contains a then do
      let right ← r.next lr a
      Transition.combinations [Transition.withoutId ll] right .composition
    else .error (.panic "internal error: entered unreachable code")
  | conjunction l r i o, loc, a =>
    if !(i.contains a || o.contains a) then
      .error (.panic "assertion failed: self.actions_contain(action)")
    else do
    let ll ← loc.getLeft
    let lr ← loc.getRight
    let left ← l.next ll a
    let right ← r.next lr a
    Transition.combinations left right .conjunction
  | quotient T S i o clock newInput, loc, a =>
    if !(i.contains a || o.contains a) then
      .error (.panic "assertion failed: self.actions_contain(action)")
    else if loc.isInconsistent then
      if i.contains a then
        .ok [{ Transition.withoutId loc with guard := constrainEq univ clock 0 }]
      else .ok []
    else if loc.isUniversal then .ok [Transition.withoutId loc]
    else do
    let lt ← loc.getLeft
    let ls ← loc.getRight
    let tt ← T.ifAvailable a (T.next lt a)
    let st ← S.ifAvailable a (S.next ls a)
    .ok (quotientMoves T S clock newInput lt ls a tt st)

/-- `get_initial_location`: compiled_component.rs:163-165, common.rs:71-77, quotient.rs:329-335 -/
def initialLoc : Sys F → Res (Option (LocTree F))
  | comp c => .ok c.initial
  | composition l r _ _ _ _ _ => do
    match ← l.initialLoc with
    | none => .ok none
    | some a =>
      match ← r.initialLoc with
      | none => .ok none
      | some b => do
        let x ← LocTree.compose a b .composition
        .ok (some x)
  | conjunction l r _ _ => do
    match ← l.initialLoc with
    | none => .ok none
    | some a =>
      match ← r.initialLoc with
      | none => .ok none
      | some b => do
        let x ← LocTree.compose a b .conjunction
        .ok (some x)
  | quotient t s _ _ _ _ => do
    match ← t.initialLoc with
    | none => .ok none
    | some a =>
      match ← s.initialLoc with
      | none => .ok none
      | some b => .ok (some (LocTree.merge a b))

/-- `get_initial_state`: compiled_component.rs:183-187, common.rs:117-127, quotient.rs:372-376 (a
quotient's initial location has no invariant) -/
def initialState (s : Sys F) : Res (Option (State F)) := do
  match ← s.initialLoc with
  | none => .ok none
  | some loc =>
    match s with
    | quotient _ _ _ _ _ _ => .ok (some ⟨loc, init⟩)
    | _ => .ok (State.fromLocation loc)

/-- `get_all_locations`: compiled_component.rs:167-169, common.rs:79-94, quotient.rs:337-353 -/
def allLocs : Sys F → Res (List (LocTree F))
  | comp c => .ok (c.locations.map (·.2))
  | composition l r _ _ _ _ _ => do
    let left ← l.allLocs
    let right ← r.allLocs
    (left.flatMap fun a => right.map fun b => (a, b)).mapM fun p =>
      LocTree.compose p.1 p.2 .composition
  | conjunction l r _ _ => do
    let left ← l.allLocs
    let right ← r.allLocs
    (left.flatMap fun a => right.map fun b => (a, b)).mapM fun p =>
      LocTree.compose p.1 p.2 .conjunction
  | quotient t s _ _ clock _ => do
    let left ← t.allLocs
    let right ← s.allLocs
    .ok ((left.flatMap fun a => right.map fun b => LocTree.merge a b) ++
      [LocTree.errorLoc clock, LocTree.universalLoc])

/-- One upper bound, `Bounds::add_upper` (edbm, used at component.rs:96, quotient.rs:119) -/
def upperBound (clock : Nat) (c : Int) : Bounds := fun i => if i = clock then some c else none

/-- `get_local_max_bounds`: compiled_component.rs:115-121, common.rs:40-48, quotient.rs:116-131.
The quotient only adds an upper bound; the model keeps one table for both kinds of bound. -/
def localBounds : Sys F → LocTree F → Res Bounds
  | comp c, loc => .ok (if loc.isUniversal || loc.isInconsistent then Bounds.new else c.bounds)
  | composition l r _ _ _ _ _, loc => do
    let ll ← loc.getLeft
    let lr ← loc.getRight
    let bl ← l.localBounds ll
    let br ← r.localBounds lr
    .ok (Bounds.add bl br)
  | conjunction l r _ _, loc => do
    let ll ← loc.getLeft
    let lr ← loc.getRight
    let bl ← l.localBounds ll
    let br ← r.localBounds lr
    .ok (Bounds.add bl br)
  | quotient t s _ _ clock _, loc =>
    if loc.isUniversal || loc.isInconsistent then .ok (Bounds.add Bounds.new (upperBound clock 0))
    else do
    let ll ← loc.getLeft
    let lr ← loc.getRight
    let bl ← t.localBounds ll
    let br ← s.localBounds lr
    .ok (Bounds.add (Bounds.add bl br) (upperBound clock 0))

/-- The trait object as seen by the algorithms. (transition_system.rs:51-160 the trait) -/
def ts (s : Sys F) : TS F :=
  ⟨s.inputs, s.outputs, s.initialLoc, s.initialState, s.next, s.localBounds, s.allLocs⟩

/-- composition.rs:26-74 `Composition::new_ts` -/
def newComposition (left right : Sys F) : Res (Sys F) :=
  let la := setUnion left.inputs left.outputs
  let ra := setUnion right.inputs right.outputs
  if !(setDisjoint left.outputs right.outputs) then .error (.err "outputs are not disjoint")
  else
    let inputs := mkSet ((left.inputs.filter fun a => !(right.outputs.contains a)) ++
      (right.inputs.filter fun a => !(left.outputs.contains a)))
    let outputs := setUnion left.outputs right.outputs
    .ok (.composition left right inputs outputs (setDiff la ra) (setDiff ra la) (setInter la ra))

/-- conjunction.rs:24-68 `Conjunction::new_ts` up to the consistency check, which only rejects -/
def newConjunctionUnchecked (left right : Sys F) : Res (Sys F) :=
  if !(setDisjoint left.inputs right.outputs) then .error (.err "actions are not disjoint")
  else if !(setDisjoint left.outputs right.inputs) then .error (.err "actions are not disjoint")
  else .ok (.conjunction left right (setInter left.inputs right.inputs)
    (setInter left.outputs right.outputs))

/-- quotient.rs:58-65, the loop that looks for an unused name.  The loop tries
`quotient_new_input0`, `quotient_new_input1`, … until one is not among the inputs; among
`inputs.length + 1` different names one is free, so that many steps are enough. -/
def freshInput (inputs : List String) : Nat → Nat → String
  | 0, i => s!"quotient_new_input{i}"
  | fuel + 1, i =>
    if inputs.contains s!"quotient_new_input{i}" then freshInput inputs fuel (i + 1)
    else s!"quotient_new_input{i}"

/-- quotient.rs:36-112 `Quotient::new_ts` without the two `precheck_sys_rep` calls, which only
reject -/
def newQuotientUnchecked (T S : Sys F) (clock : Nat) : Res (Sys F) :=
  if !(setDisjoint S.outputs T.inputs) then .error (.err "actions are not disjoint")
  else
    let inputs := setUnion T.inputs S.outputs
    let newInput := freshInput inputs inputs.length 0
    let inputs := setUnion inputs [newInput]
    let outputs := setUnion (setDiff T.outputs S.outputs) (setDiff S.inputs T.inputs)
    .ok (.quotient T S inputs outputs clock newInput)

end Sys
end Reveaal
