import Verif.Model.Recipe

/-!
# Choosing the loader of a project

Models `is_xml_project` (`src/DataReader/xml_parser.rs`) and `get_project_loader` (`src/main.rs`) with the
path operations of the standard library that they use (on Unix; a path is a text, its bytes that are not UTF-8
are not modelled).
-/

namespace Reveaal

/-- std::path::Component on Unix (no prefixes) (std, for xml_parser.rs:16) -/
inductive PathComp where
  | root
  | curDir
  | parentDir
  | normal (name : List Char)
deriving DecidableEq, Repr

/-- std::path `Components::parse_single_component` (std, for xml_parser.rs:16) -/
def PathComp.ofText (t : List Char) : Option PathComp :=
  if t = [] then none
  else if t = ['.'] then none
  else if t = ['.', '.'] then some .parentDir
  else some (.normal t)

/-- std::path `Components::include_cur_dir`: a path that is "." or starts with "./"
(std, for xml_parser.rs:16) -/
def startsWithCurDir : List Char → Bool
  | ['.'] => true
  | '.' :: '/' :: _ => true
  | _ => false

/-- std::path `Path::components` (std, for xml_parser.rs:16) -/
def pathComponents (p : List Char) : List PathComp :=
  (if p.head? = some '/' then [.root] else if startsWithCurDir p then [.curDir] else []) ++
    (splitOnChar '/' p).filterMap PathComp.ofText

/-- std::path `Path::ends_with`: whole components are compared, from the end (std, used at xml_parser.rs:16) -/
def pathEndsWith (p child : List Char) : Bool := (pathComponents child).isSuffixOf (pathComponents p)

/-- xml_parser.rs:15-17 `is_xml_project` -/
def isXmlProject (p : String) : Bool := pathEndsWith p.toList ".xml".toList

/-- The two loaders, component_loader.rs:262 `JsonProjectLoader`, :347 `XmlProjectLoader` -/
inductive Loader where
  | xml
  | json
deriving DecidableEq, Repr

/-- main.rs:89-98 `get_project_loader` (which loader is chosen; loading itself reads files) -/
def getProjectLoader (p : String) : Loader := if isXmlProject p then .xml else .json

end Reveaal
