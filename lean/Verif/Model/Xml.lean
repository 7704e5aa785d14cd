import Verif.Model.Project

/-!
# Reading XML projects

Models `src/DataReader/xml_parser.rs` (besides the system declarations, which are in Model/SystemDecls) and the use of it by
the command line tool and the server.  The XML text itself (crate `elementtree`) is not modelled: an element is the record of
its tag, attributes, text before the first child, and children.
-/

namespace Reveaal
open Text ZoneLib

/-- An XML element (crate elementtree, `Element`, as used at xml_parser.rs:36-147); names have no namespace. -/
inductive Xml where
  | mk (tag : String) (attrs : List (String × String)) (text : Chars) (children : List Xml)

namespace Xml

/-- the name of an element (compared at xml_parser.rs:42-47) -/
def tag : Xml → String | mk t _ _ _ => t
/-- the attributes (looked up at xml_parser.rs:57) -/
def attrs : Xml → List (String × String) | mk _ a _ _ => a
/-- `Element::text` (crate elementtree, used at xml_parser.rs:44) -/
def text : Xml → Chars | mk _ _ t _ => t
/-- the elements inside (searched at xml_parser.rs:42-47) -/
def children : Xml → List Xml | mk _ _ _ c => c

/-- `Element::find_all` (crate elementtree, used at xml_parser.rs:42) -/
def findAll (x : Xml) (t : String) : List Xml := x.children.filter fun c => c.tag = t

/-- `Element::find` (crate elementtree, used at xml_parser.rs:43) -/
def find (x : Xml) (t : String) : Option Xml := x.children.find? fun c => c.tag = t

/-- `Element::get_attr` (crate elementtree, used at xml_parser.rs:57) -/
def attr (x : Xml) (k : String) : Option String := x.attrs.lookup k

end Xml

/-- xml_parser.rs:155-191, one line of declarations -/
def DeclState.xmlLine (st : DeclState) (l : List Char) : Res DeclState :=
  if "//".toList.isPrefixOf l || l.isEmpty then .ok st
  else (splitOnChar ';' l).foldlM (fun st d => st.subDecl (without '\r' d)) st

/-- xml_parser.rs:149-196 `parse_declarations` -/
def xmlDeclarations (text : Chars) : Res Decls := do
  let st ← (splitOnChar '\n' text).foldlM DeclState.xmlLine ⟨[], [], 1⟩
  .ok ⟨st.ints, st.clocks⟩

/-- xml_parser.rs:73-95 `collect_locations`, one location: the first label is the invariant -/
def Xml.location (initial : String) (x : Xml) : Res Location := do
  let id ← unwrap (x.attr "id")
  let inv ← match x.find "label" with
    | some l => (do .ok (some (← orPanic (parseGuard l.text))) : Res (Option BoolE))
    | none => .ok none
  .ok ⟨id, inv, if id = initial then .initial else .normal, ""⟩

/-- xml_parser.rs:100-102: what the labels of an edge seen so far say -/
structure XmlLabels where
  guard : Option BoolE
  update : Option (List Update)
  sync : Chars

/-- xml_parser.rs:103-122, one label -/
def XmlLabels.add (s : XmlLabels) (l : Xml) : Res XmlLabels :=
  unwrap (l.attr "kind") >>= fun k =>
    if k = "guard" then orPanic (parseGuard l.text) >>= fun g => .ok { s with guard := some g }
    else if k = "synchronisation" then .ok { s with sync := l.text }
    else if k = "assignment" then orPanic (parseUpdates l.text) >>= fun us => .ok { s with update := some us }
    else .ok s

/-- xml_parser.rs:97-147 `collect_edges`, one edge -/
def Xml.edge (x : Xml) : Res Edge := do
  let s ← (x.findAll "label").foldlM XmlLabels.add ⟨none, none, []⟩
  let source ← unwrap (x.find "source") >>= fun y => unwrap (y.attr "ref")
  let target ← unwrap (x.find "target") >>= fun y => unwrap (y.attr "ref")
  .ok ⟨"NotImplemented", source, target, if s.sync.contains '?' then .input else .output, s.guard, s.update,
    String.ofList (s.sync.filter fun c => c ≠ '!' && c ≠ '?')⟩

/-- xml_parser.rs:43-46: the text of the declarations -/
def Xml.declarations (x : Xml) : Chars :=
  match x.find "declaration" with
  | some e => e.text
  | none => []

/-- xml_parser.rs:42-63, one component -/
def Xml.component (x : Xml) : Res Component := do
  let decls ← xmlDeclarations x.declarations
  let edges ← (x.findAll "transition").mapM Xml.edge
  let name ← unwrap (x.find "name")
  let init ← unwrap (x.find "init") >>= fun y => unwrap (y.attr "ref")
  let locations ← (x.findAll "location").mapM (Xml.location init)
  .ok ⟨String.ofList name.text, decls, locations, edges⟩

/-- xml_parser.rs:36-71 `parse_xml`: the components and the system declarations.  There are never any queries. -/
def Xml.project (x : Xml) : Res (List Component × SystemSpec) := do
  let cs ← (x.findAll "template").mapM Xml.component
  let spec ← unwrap (x.find "system") >>= fun s => xmlSystem.decode s.text
  .ok (cs, spec)

/-- component_loader.rs:347-371 `XmlProjectLoader::new_loader` -/
def Xml.openProject (Z : Nat → Type) [∀ d, ZoneLib (Z d)] (x : Xml) : Res (List (String × Component)) := do
  let (cs, spec) ← x.project
  openXml Z cs spec

/-- component_loader.rs:194-197 `parse_xml_components`: the system declarations are read and dropped -/
def Xml.components (x : Xml) : Res (List Component) := do
  let (cs, _) ← x.project
  .ok cs

end Reveaal
