import Verif.Model.Decision
import Verif.Model.StateQuery

/-!
# States and decisions as messages

Models `src/System/specifics.rs`, the conversions of locations, zones, states and decisions in
`src/ProtobufServer/proto_conversions.rs`, `src/DataReader/proto_reader.rs`, `construct_location_tree` of the
transition systems, and `src/ProtobufServer/ecdar_requests/simulation_requests.rs`.

The message types are generated by `prost` from the protocol file: optional messages are options, enumerations
are integers.  Encoding messages into bytes is not modelled.
-/

namespace Reveaal
open ZoneLib

/-- specifics.rs:100-111 `struct SpecificComp`; also the message `ComponentInstance` (proto_conversions.rs:95-111
copies the two fields) -/
structure SpecificComp where
  name : String
  id : Nat
deriving DecidableEq, Repr

/-- compiled_component.rs:20-25 `struct ComponentInfo` (without the bounds) -/
structure CompInfo where
  name : String
  id : Nat
  decls : Decls

/-- transition_system.rs:24-27 `enum ComponentInfoTree` -/
inductive InfoTree where
  | info (i : CompInfo)
  | pair (l r : InfoTree)

namespace InfoTree

/-- transition_system.rs:30-37 `iter` -/
def list : InfoTree → List CompInfo
  | info i => [i]
  | pair l r => l.list ++ r.list

/-- transition_system.rs:39-46 `split` -/
def split : InfoTree → Res (InfoTree × InfoTree)
  | pair l r => .ok (l, r)
  | info _ => .error (.panic "Cannot split a ComponentInfoTree with only one ComponentInfo")

/-- transition_system.rs:48-57 `info` -/
def one : InfoTree → Res CompInfo
  | info i => .ok i
  | pair _ _ => .error (.panic "Cannot get info from a ComponentInfoTree with more than one ComponentInfo")

end InfoTree

section
variable {F : Type}

/-- `comp_infos`: compiled_component.rs:205-207, transition_system.rs:137-142 -/
def Sys.infos : Sys F → InfoTree
  | comp c => .info ⟨c.name, c.compId, c.decls⟩
  | composition l r _ _ _ _ _ => .pair l.infos r.infos
  | conjunction l r _ _ => .pair l.infos r.infos
  | quotient t s _ _ _ _ => .pair t.infos s.infos

end

/-! ## Locations -/

/-- query_failures.rs:10-21 `enum SystemType` -/
inductive SysType where
  | refinement
  | quotient
  | composition
  | conjunction
  | simple
deriving DecidableEq, Repr

/-- specifics.rs:223-236 `enum SpecificLocation` -/
inductive SpecificLoc where
  | component (comp : SpecificComp) (locId : String)
  | branch (l r : SpecificLoc) (op : SysType)
  | special (k : SpecialLoc)
deriving DecidableEq, Repr

/-- specifics.rs:394-425 `specific_location` -/
def specificLocation : LocId → InfoTree → Res SpecificLoc
  | .conjunction l r, infos => do
    let (il, ir) ← infos.split
    .ok (.branch (← specificLocation l il) (← specificLocation r ir) .conjunction)
  | .composition l r, infos => do
    let (il, ir) ← infos.split
    .ok (.branch (← specificLocation l il) (← specificLocation r ir) .composition)
  | .quotient l r, infos => do
    let (il, ir) ← infos.split
    .ok (.branch (← specificLocation l il) (← specificLocation r ir) .quotient)
  | .simple n, infos => do
    let i ← infos.one
    .ok (.component ⟨i.name, i.id⟩ n)
  | .special k, _ => .ok (.special k)
  | .any, _ => .error (.panic "AnyLocation should not be used in a state")

/-- The message `LocationTree`.  `missing` is a tree without a node type, and also an absent child: both are
met with `unwrap`. (built at proto_conversions.rs:29-62) -/
inductive ProtoLoc where
  | missing
  | binary (l r : ProtoLoc) (operator : Int)
  | leaf (id : String) (comp : Option SpecificComp)
  | special (kind : Int)
deriving DecidableEq, Repr

/-- proto_conversions.rs:29-62 `From<SpecificLocation> for LocationTree` -/
def SpecificLoc.toProto : SpecificLoc → Res ProtoLoc
  | .branch l r op => do
    let l ← l.toProto
    let r ← r.toProto
    let op ← match op with
      | .conjunction => .ok 0
      | .composition => .ok 1
      | .quotient => .ok 2
      | .refinement => .ok 3
      | .simple => .error (.panic "internal error: entered unreachable code")
    .ok (.binary l r op)
  | .component comp id => .ok (.leaf id (some comp))
  | .special .universal => .ok (.special 0)
  | .special .error => .ok (.special 1)

/-- proto_conversions.rs:64-93 `From<LocationTree> for SpecificLocation`.  The generated `operator()` answers the
first operator for an unknown number. -/
def ProtoLoc.toSpecific : ProtoLoc → Res SpecificLoc
  | .missing => .error (.panic "called `Option::unwrap()` on a `None` value")
  | .binary l r op => do
    let l ← l.toSpecific
    let r ← r.toSpecific
    .ok (.branch l r
      (if op = 1 then .composition else if op = 2 then .quotient else if op = 3 then .refinement else .conjunction))
  | .leaf id (some comp) => .ok (.component comp id)
  | .leaf _ none => .error (.panic "called `Option::unwrap()` on a `None` value")
  | .special k =>
    if k = 0 then .ok (.special .universal) else if k = 1 then .ok (.special .error)
    else .error (.panic "Invalid special location id")

section
variable {F : Type} [ZoneLib F]

/-- specifics.rs:250-258 `split` -/
def SpecificLoc.split : SpecificLoc → Res (SpecificLoc × SpecificLoc)
  | .branch l r _ => .ok (l, r)
  | _ => .error (.panic "Cannot split non-branch location")

/-- `construct_location_tree`: compiled_component.rs:213-231, common.rs:137-148, quotient.rs:386-401 -/
def Sys.constructLoc : Sys F → SpecificLoc → Res (LocTree F)
  | comp c, .component i id =>
    if i.name ≠ c.name then .error (.panic "assertion failed: `(left == right)`")
    else
      match (c.locations.map (·.2)).find? fun l => decide (l.id = .simple id) with
      | some l => .ok l
      | none => .error (.err "Could not find location")
  | comp _, _ => .error (.panic "Should not happen at the level of a component.")
  | composition l r _ _ _ _ _, target => do
    let (tl, tr) ← target.split
    let a ← l.constructLoc tl
    let b ← r.constructLoc tr
    LocTree.compose a b .composition
  | conjunction l r _ _, target => do
    let (tl, tr) ← target.split
    let a ← l.constructLoc tl
    let b ← r.constructLoc tr
    LocTree.compose a b .conjunction
  | quotient t s _ _ clock _, target =>
    match target with
    | .branch l r _ => do
      let a ← t.constructLoc l
      let b ← s.constructLoc r
      .ok (LocTree.merge a b)
    | .special .universal => .ok LocTree.universalLoc
    | .special .error => .ok (LocTree.errorLoc clock)
    | .component _ _ => .error (.panic "Should not occur")

/-- What is sent for a location: specifics.rs:389-392 `state_specific_location` and the conversion -/
def sendLocation (s : Sys F) (l : LocTree F) : Res ProtoLoc := do
  (← specificLocation l.id s.infos).toProto

/-- proto_reader.rs:82-89 `proto_location_tree_to_location_tree` -/
def readLocation (s : Sys F) (p : ProtoLoc) : Res (LocTree F) := do
  orPanic (s.constructLoc (← p.toSpecific))

end

/-! ## Zones -/

/-- specifics.rs:334-345 `struct SpecificClock`; also the message `ComponentClock` (proto_conversions.rs:164-171),
whose component instance is optional -/
structure SpecificClock where
  name : String
  comp : SpecificComp
deriving DecidableEq, Repr

/-- specifics.rs:169-178 `enum SpecificClockVar` -/
inductive ClockVar where
  | zero
  | component (c : SpecificClock)
  | system (i : Nat)
deriving DecidableEq, Repr

/-- specifics.rs:180-187 `struct SpecificConstraint` -/
structure SpecificConstr where
  i : ClockVar
  j : ClockVar
  strict : Bool
  c : Int
deriving DecidableEq, Repr

/-- `HashMap::from_iter`: later entries replace earlier ones. (std, used at specifics.rs:348-367) -/
def hmCollect {K V : Type} [DecidableEq K] (l : List (K × V)) : List (K × V) :=
  l.foldl (fun m p => hmInsert p.1 p.2 m) []

/-- specifics.rs:347-366 `specific_clock_comp_map`; `ord` is the iteration order of the clocks of a component. -/
def specificClockMap (ord : List (String × Nat) → List (String × Nat)) (infos : InfoTree) : List (Nat × SpecificClock) :=
  hmCollect (infos.list.flatMap fun comp => (ord comp.decls.clocks).map fun p => (p.2, ⟨p.1, ⟨comp.name, comp.id⟩⟩))

/-- specifics.rs:194-205 `map_clock` -/
def mapClock (m : List (Nat × SpecificClock)) (clock : Nat) : ClockVar :=
  if clock = 0 then .zero
  else
    match m.lookup clock with
    | some c => .component c
    | none => .system clock

/-- specifics.rs:190-213 `from_constraint` -/
def SpecificConstr.ofConstr (m : List (Nat × SpecificClock)) (k : Constr) : SpecificConstr :=
  match k.ineq with
  | .LE c => ⟨mapClock m k.i, mapClock m k.j, false, c⟩
  | .LS c => ⟨mapClock m k.i, mapClock m k.j, true, c⟩

/-- The message `Clock` (built at proto_conversions.rs:144-171) -/
inductive ProtoClock where
  | zero
  | component (comp : Option SpecificComp) (name : String)
  | system (i : Nat)
  | missing
deriving DecidableEq, Repr

/-- The message `Constraint` (built at proto_conversions.rs:133-142) -/
structure ProtoConstr where
  x : Option ProtoClock
  y : Option ProtoClock
  strict : Bool
  c : Int
deriving DecidableEq, Repr

/-- proto_conversions.rs:144-162 `From<SpecificClockVar> for Clock` -/
def ClockVar.toProto : ClockVar → Res ProtoClock
  | .zero => .ok .zero
  | .component c => .ok (.component (some c.comp) c.name)
  | .system i => if i < 2 ^ 32 then .ok (.system i) else .error (.panic "Could not fit clock index in u32")

/-- proto_conversions.rs:133-142 `From<SpecificConstraint> for Constraint` -/
def SpecificConstr.toProto (k : SpecificConstr) : Res ProtoConstr := do
  .ok ⟨some (← k.i.toProto), some (← k.j.toProto), k.strict, k.c⟩

/-- proto_reader.rs:95-106 `determine_index` -/
def readClock (m : List (Nat × String × Decls)) : ProtoClock → Res Nat
  | .zero => .ok 0
  | .system i => .ok i
  | .component none _ => .error (.panic "called `Option::unwrap()` on a `None` value")
  | .component (some comp) name =>
    match m.lookup comp.id with
    | none => .error (.panic "called `Option::unwrap()` on a `None` value")
    | some (n, d) =>
      if n ≠ comp.name then .error (.panic "assertion failed: `(left == right)`")
      else
        match d.clockIndex name with
        | some i => .ok i
        | none => .error (.panic "called `Option::unwrap()` on a `None` value")
  | .missing => .error (.panic "called `Option::unwrap()` on a `None` value")

/-- proto_reader.rs:91-121 `proto_constraint_to_constraint` -/
def readConstr (m : List (Nat × String × Decls)) (p : ProtoConstr) : Res Constr :=
  match p.x with
  | none => .error (.panic "called `Option::unwrap()` on a `None` value")
  | some x => do
    let i ← readClock m x
    match p.y with
    | none => .error (.panic "called `Option::unwrap()` on a `None` value")
    | some y => do
      let j ← readClock m y
      .ok ⟨i, j, if p.strict then .LS p.c else .LE p.c⟩

section
variable {F : Type} [ZoneLib F]

/-- specifics.rs:297-298 and 133-167, proto_conversions.rs:113-131: what is sent for a zone -/
def sendZone (ord : List (String × Nat) → List (String × Nat)) (s : Sys F) (z : F) : Res (List (List ProtoConstr)) :=
  (minimal z).mapM fun c => c.mapM fun k => (SpecificConstr.ofConstr (specificClockMap ord s.infos) k).toProto

/-- proto_reader.rs:123-156 `proto_zone_to_owned_federation` -/
def readZone (s : Sys F) (p : List (List ProtoConstr)) : Res F := do
  let m := hmCollect (s.infos.list.map fun c => (c.id, c.name, c.decls))
  .ok (ZoneLib.fromDisjunction (← p.mapM fun c => c.mapM (readConstr m)))

/-! ## States and decisions -/

/-- The message `State` (built at proto_conversions.rs:20-27, 113-131) -/
structure ProtoState where
  loc : Option ProtoLoc
  zone : Option (List (List ProtoConstr))
deriving DecidableEq, Repr

/-- specifics.rs:292-303 `from_state`, proto_conversions.rs:20-27 -/
def sendState (ord : List (String × Nat) → List (String × Nat)) (s : Sys F) (st : State F) : Res ProtoState := do
  .ok ⟨some (← sendLocation s st.loc), some (← sendZone ord s st.zone)⟩

/-- proto_reader.rs:69-80 `proto_state_to_state` -/
def readState (s : Sys F) (p : ProtoState) : Res (State F) :=
  match p.zone with
  | none => .error (.panic "called `Option::unwrap()` on a `None` value")
  | some z => do
    let fed ← readZone s z
    match p.loc with
    | none => .error (.panic "called `Option::unwrap()` on a `None` value")
    | some l => do
      let loc ← readLocation s l
      .ok ⟨loc, loc.applyInvariants fed⟩

/-- specifics.rs:113-131 `struct SpecificEdge`; also the message `Edge` (proto_conversions.rs:347-354) -/
structure SpecificEdge where
  comp : SpecificComp
  edge : String
deriving DecidableEq, Repr

/-- `get_composition_type` of the four transition systems
(compiled_component.rs:193, composition.rs, conjunction.rs, quotient.rs:382) -/
def Sys.compType : Sys F → CompType
  | comp _ => .simple
  | composition _ _ _ _ _ _ _ => .composition
  | conjunction _ _ _ _ => .conjunction
  | quotient _ _ _ _ _ _ => .quotient

mutual
/-- specifics.rs:25-64 `transition_id_to_specific_edges` -/
def specificEdges : TransId → Sys F → Res (List SpecificEdge)
  | .conjunction a b, s =>
    if s.compType ≠ .conjunction then .error (.panic "assertion failed: `(left == right)`")
    else do
      let (l, r) ← s.children
      .ok ((← specificEdges a l) ++ (← specificEdges b r))
  | .composition a b, s =>
    if s.compType ≠ .composition then .error (.panic "assertion failed: `(left == right)`")
    else do
      let (l, r) ← s.children
      .ok ((← specificEdges a l) ++ (← specificEdges b r))
  | .quotient as bs, s =>
    if s.compType ≠ .quotient then .error (.panic "assertion failed: `(left == right)`")
    else do
      let (l, r) ← s.children
      .ok ((← specificEdgesAll as l) ++ (← specificEdgesAll bs r))
  | .simple e, s =>
    if s.compType ≠ .simple then .error (.panic "assertion failed: `(left == right)`")
    else
      match s.infos with
      | .info i => .ok [⟨⟨i.name, i.id⟩, e⟩]
      | .pair _ _ => .error (.panic "Simple transition system should have ComponentInfoTree::Info")
  | .none, _ => .ok []
/-- specifics.rs:46-51, the loops over the two sides of a quotient -/
def specificEdgesAll : List TransId → Sys F → Res (List SpecificEdge)
  | [], _ => .ok []
  | t :: ts, s => do .ok ((← specificEdges t s) ++ (← specificEdgesAll ts s))
end

/-- The message `Decision` (built at proto_conversions.rs:326-335) -/
structure ProtoDecision where
  source : Option ProtoState
  action : String
  edges : List SpecificEdge
  destination : Option ProtoState
deriving DecidableEq, Repr

/-- specifics.rs:66-80 `from_decision`, proto_conversions.rs:326-335 -/
def sendDecision (ord : List (String × Nat) → List (String × Nat)) (s : Sys F) (d : Decision F) :
    Res ProtoDecision := do
  let edges ← match d.transition with
    | some t => specificEdges t.id s
    | none => .ok []
  .ok ⟨some (← sendState ord s d.state), d.action, edges, some (← sendState ord s d.nextState)⟩

/-- proto_reader.rs:35-61 `proto_decision_to_decision` -/
def readDecision (s : Sys F) (p : ProtoDecision) : Res (Decision F) :=
  match p.source with
  | none => .error (.panic "A decision must have a source state.")
  | some src => do
    let state ← readState s src
    match p.destination with
    | none => .error (.panic "A decision must have a destination state.")
    | some dst => do
      let next ← readState s dst
      if p.action = "" then .error (.panic "A decision must have an action specified.")
      else .ok ⟨state, p.action, none, next⟩

/-- simulation_requests.rs:17-40 `handle_start_simulation`, for the system of the request.  `acts` is the iteration
order of the actions. -/
def startSimulation (ord : List (String × Nat) → List (String × Nat)) (s : Sys F) (acts : List String) :
    Res (Option ProtoState × List ProtoDecision) := do
  let ds ← (← Decision.initialDecisions s.ts acts).mapM (sendDecision ord s)
  match ← s.ts.initialState with
  | none => .ok (none, ds)
  | some st => do .ok (some (← sendState ord s st), ds)

/-- simulation_requests.rs:44-70 `handle_take_simulation_step`, for the system of the request and the chosen
decision -/
def stepSimulation (ord : List (String × Nat) → List (String × Nat)) (s : Sys F) (acts : List String)
    (p : ProtoDecision) : Res (Option ProtoState × List ProtoDecision) := do
  let d ← readDecision s p
  let ds ← d.resolve s.ts acts
  .ok (p.destination, ← ds.mapM (sendDecision ord s))

end
end Reveaal
