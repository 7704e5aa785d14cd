import Verif.Model.Xml
import Verif.Spec.SystemDecls
import Verif.Spec.Semantics

/-!
# Components written in XML

The specification of C67: when an XML element and a JSON object describe the same component, and when two components are the
same but for the names of edges.
-/

namespace Reveaal
open ZoneLib

/-- `t`, with `eol` at the end of every line -/
def withEol (eol : List Char) (t : List Char) : List Char := ['\n'].intercalate ((splitOnChar '\n' t).map (· ++ eol))

/-- The only label of the element, if it has any, is this text; the empty text stands for no label. -/
def LabelText (labels : List Xml) (t : List Char) : Prop :=
  (t = [] ∧ labels = []) ∨ ∃ l, labels = [l] ∧ l.text = t ∧ t ≠ []

/-- the labels of this kind -/
def Xml.labels (x : Xml) (kind : String) : List Xml := (x.findAll "label").filter fun l => l.attr "kind" = some kind

/-- A location. Besides the invariant it has no labels. -/
structure XmlLocation (initial : String) (x : Xml) (l : RawLocation) : Prop where
  id : x.attr "id" = some l.id
  ty : l.ty = if l.id = initial then "INITIAL" else "NORMAL"
  invariant : LabelText (x.findAll "label") l.invariant

/-- An edge. It may have labels of other kinds. -/
structure XmlEdge (x : Xml) (e : RawEdge) : Prop where
  source : ∃ y, x.find "source" = some y ∧ y.attr "ref" = some e.source
  target : ∃ y, x.find "target" = some y ∧ y.attr "ref" = some e.target
  kinds : ∀ l ∈ x.findAll "label", ∃ k, l.attr "kind" = some k
  guard : LabelText (x.labels "guard") e.guard
  update : LabelText (x.labels "assignment") e.update
  status : e.status = "INPUT" ∨ e.status = "OUTPUT"
  sync : ∃ l, x.labels "synchronisation" = [l] ∧ l.text = e.sync.toList ++ [if e.status = "INPUT" then '?' else '!']
  action : '?' ∉ e.sync.toList ∧ '!' ∉ e.sync.toList

/-- A component: the JSON object and the XML element describe the same one. -/
structure XmlTemplate (x : Xml) (c : RawComponent) : Prop where
  name : ∃ y, x.find "name" = some y ∧ y.text = c.name.toList
  declarations : '\r' ∉ c.declarations.toList ∧ ((x.find "declaration" = none ∧ c.declarations = "") ∨
    ∃ y eol, x.find "declaration" = some y ∧ (eol = [] ∨ eol = ['\r']) ∧ y.text = withEol eol c.declarations.toList)
  locations : ∃ y initial, x.find "init" = some y ∧ y.attr "ref" = some initial ∧
    List.Forall₂ (XmlLocation initial) (x.findAll "location") c.locations
  edges : List.Forall₂ XmlEdge (x.findAll "transition") c.edges

/-- The component without what XML does not say: names of edges, and urgencies (which no query looks at). -/
def Component.unnamed (c : Component) : Component :=
  { c with
    locations := c.locations.map fun l => { l with urgency := "" }
    edges := c.edges.map fun e => { e with id := "NotImplemented" } }

/-- A project: components with different names, and system declarations as in C66. -/
structure XmlProject (x : Xml) (cs : List RawComponent) (t : SystemText) : Prop where
  components : List.Forall₂ XmlTemplate (x.findAll "template") cs
  names : (cs.map (·.name)).Nodup
  system : ∃ y eol, x.find "system" = some y ∧ (eol = [] ∨ eol = ['\r']) ∧ y.text = t.text eol
  proper : t.Proper

/-- Two systems that differ only in the names of transitions: they start in the same location, and perform the same actions,
with the same clock values before and after. -/
structure TS.SameSteps {F : Type} [ZoneLib F] (A B : TS F) : Prop where
  initial : A.initialLoc = B.initialLoc
  steps : ∀ l v a l' v', A.Act l v a l' v' ↔ B.Act l v a l' v'

end Reveaal
