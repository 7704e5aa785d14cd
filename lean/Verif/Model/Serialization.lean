import Verif.Model.EdgeText
import Verif.Model.Recipe

/-!
# Writing components to JSON and reading them

Models the field-by-field conversions of `src/DataReader/serialization.rs` and of the derived (de)serialization of
`Component`, `Location` and `Edge`.  The JSON text itself (`serde_json`) is not modelled: a JSON object is the record of
its fields, and a JSON string is a text.  Fields that are written but never read (coordinates, nails, colours, nicknames,
descriptions) are left out.
-/

namespace Reveaal
open Text

/-- The JSON object of a location, serialization.rs:132-157 `DummyLocation`, location.rs:25-39 -/
structure RawLocation where
  id : String
  invariant : Chars
  ty : String
  urgency : String
deriving DecidableEq, Repr

/-- The JSON object of an edge, serialization.rs:31-58 `DummyEdge`, edge.rs:14-39 -/
structure RawEdge where
  id : String
  source : String
  target : String
  status : String
  guard : Chars
  update : Chars
  sync : String
deriving DecidableEq, Repr

/-- The JSON object of a component, serialization.rs:90-106 `DummyComponent`, component.rs:15-28 -/
structure RawComponent where
  name : String
  declarations : String
  locations : List RawLocation
  edges : List RawEdge
deriving DecidableEq, Repr

/-! ## Writing -/

/-- serialization.rs:349-366 `encode_declarations`; the clocks are in iteration order of the hash map -/
def encodeDeclarations (d : Decls) : String :=
  match d.clocks with
  | [] => ""
  | p :: ps => String.ofList ("clock ".toList ++ p.1.toList ++ (ps.flatMap fun q => ", ".toList ++ q.1.toList) ++ ";".toList)

/-- serialization.rs:291-299 `encode_sync_type` -/
def encodeSyncType : SyncType → String
  | .input => "INPUT"
  | .output => "OUTPUT"

/-- serialization.rs:333-347 `encode_location_type` -/
def encodeLocType : LocType → Res String
  | .normal => .ok "NORMAL"
  | .initial => .ok "INITIAL"
  | .universal => .ok "UNIVERSAL"
  | .inconsistent => .ok "INCONSISTENT"
  | .any => .error (.panic "internal error: entered unreachable code")

/-- serialization.rs:159-177 `From<Location> for DummyLocation` and its serialization -/
def Location.write (l : Location) : Res RawLocation := do
  .ok ⟨l.id, encodeGuard l.invariant, ← encodeLocType l.ty, l.urgency⟩

/-- serialization.rs:60-88 `From<Edge> for DummyEdge` and its serialization -/
def Edge.write (e : Edge) : RawEdge :=
  ⟨e.id, e.source, e.target, encodeSyncType e.sync, encodeGuard e.guard, encodeUpdates e.update, e.action⟩

/-- serialization.rs:108-130 `From<Component> for DummyComponent` and its serialization.  The layout
(graph_layout.rs:65-225) looks up the ends of every edge among the locations and unwraps the result; the rest of it only
computes coordinates and is left out. -/
def Component.write (c : Component) : Res RawComponent :=
  if c.edges.all fun e => (c.locations.map (·.id)).contains e.source && (c.locations.map (·.id)).contains e.target then do
    .ok ⟨c.name, encodeDeclarations c.decls, ← c.locations.mapM Location.write, c.edges.map Edge.write⟩
  else .error (.panic "called `Option::unwrap()` on a `None` value")

/-! ## Reading -/

/-- serialization.rs:279-289 `decode_sync_type` -/
def decodeSyncType (s : String) : Res SyncType :=
  if s = "INPUT" then .ok .input
  else if s = "OUTPUT" then .ok .output
  else .error (.panic "Unknown sync type in status")

/-- serialization.rs:301-315 `decode_sync` -/
def decodeSync (s : String) : String :=
  if s.toList.contains '!' then String.ofList (s.toList.filter (· ≠ '!'))
  else if s.toList.contains '?' then String.ofList (s.toList.filter (· ≠ '?'))
  else s

/-- serialization.rs:318-331 `decode_location_type` -/
def decodeLocType (s : String) : Res LocType :=
  if s = "NORMAL" then .ok .normal
  else if s = "INITIAL" then .ok .initial
  else if s = "UNIVERSAL" then .ok .universal
  else if s = "INCONSISTENT" then .ok .inconsistent
  else .error (.panic "Unknown sync type in status")

/-- serialization.rs:262-277 `decode_invariant`: like a guard, but a text that cannot be parsed is a panic -/
def decodeInvariant (cs : Chars) : Res (Option BoolE) := orPanic (decodeGuard cs)

/-- location.rs:25-39, the derived deserialization -/
def RawLocation.read (l : RawLocation) : Res Location := do
  .ok ⟨l.id, ← decodeInvariant l.invariant, ← decodeLocType l.ty, l.urgency⟩

/-- edge.rs:14-39, the derived deserialization -/
def RawEdge.read (e : RawEdge) : Res Edge := do
  .ok ⟨e.id, e.source, e.target, ← decodeSyncType e.status, ← decodeGuard e.guard, ← decodeUpdates e.update,
    decodeSync e.sync⟩

/-- component.rs:15-28, the derived deserialization (fields in the order in which they are written) -/
def RawComponent.read (c : RawComponent) : Res Component := do
  .ok ⟨c.name, ← decodeDeclarations c.declarations, ← c.locations.mapM RawLocation.read, ← c.edges.mapM RawEdge.read⟩

end Reveaal
