import Verif.Model.Recipe

/-!
# System declarations

Models the two readers of system declarations, `src/ModelObjects/system_declarations.rs` (JSON) and
`src/DataReader/xml_parser.rs` (XML).
-/

namespace Reveaal

/-- system_declarations.rs:36-41 `SystemSpecification`, hash maps as lists -/
structure SystemSpec where
  components : List String
  inputs : List (String × List String)
  outputs : List (String × List String)
deriving DecidableEq, Repr

/-- In what the two readers differ (system_declarations.rs:79-108, xml_parser.rs:207-240): lines that are skipped although
they are not empty, characters dropped from the words of the first line, and from the words of a line that starts with `IO` -/
structure SystemReader where
  skips : List Char → Bool
  dropName : Char → Bool
  dropAction : Char → Bool

/-- system_declarations.rs:63-148 `decode_sync_type` -/
def jsonSystem : SystemReader := ⟨fun _ => false, fun _ => false, fun _ => false⟩

/-- `char::is_whitespace` (std, used at xml_parser.rs:212-219): the Unicode property White_Space -/
def isWhite (c : Char) : Bool :=
  let n := c.toNat
  (9 ≤ n && n ≤ 13) || n == 32 || n == 0x85 || n == 0xa0 || n == 0x1680 || (0x2000 ≤ n && n ≤ 0x200a) || n == 0x2028 ||
    n == 0x2029 || n == 0x202f || n == 0x205f || n == 0x3000

/-- xml_parser.rs:198-284 `decode_sync_type`.  Line feeds are dropped at 244, but there are none in a line. -/
def xmlSystem : SystemReader := ⟨fun l => l.all isWhite, isWhite, fun c => c == '\r'⟩

/-- system_declarations.rs:67-77: the components named so far (with the word `system` first), `none` before the first
line that is not skipped, and the specification so far -/
structure SpecState where
  names : Option (List (List Char))
  spec : SystemSpec
deriving DecidableEq, Repr

/-- `HashMap::get_mut` and `push`, or `insert` of a new list (system_declarations.rs:118-130) -/
def pushTo (m : List (String × List String)) (k v : String) : List (String × List String) :=
  hmInsert k ((m.lookup k).getD [] ++ [v]) m

/-- `str::replace` of a character by nothing (std, used at system_declarations.rs:93-127) -/
def without (c : Char) (cs : List Char) : List Char := cs.filter (· ≠ c)

/-- system_declarations.rs:112-134, one action (xml_parser.rs:247-269) -/
def SystemSpec.action (spec : SystemSpec) (name : String) (a : List Char) : Res SystemSpec :=
  if a.isEmpty then .ok spec
  else if a.getLast? = some '?' then .ok { spec with inputs := pushTo spec.inputs name (String.ofList (without '?' a)) }
  else if a.getLast? = some '!' then .ok { spec with outputs := pushTo spec.outputs name (String.ofList (without '!' a)) }
  else .error (.panic "Channel type not defined for Channel")

/-- system_declarations.rs:103-139, a line that starts with `IO` (xml_parser.rs:236-274) -/
def SystemReader.ioLine (R : SystemReader) (spec : SystemSpec) (names : List (List Char)) : List (List Char) → Res SystemSpec
  | [] => .error (.panic "index out of bounds")
  | name :: words =>
    if names.contains name then
      words.foldlM (fun spec w =>
        (splitOnChar ',' (without '}' ((without '{' w).filter fun c => !R.dropAction c))).foldlM
          (fun spec a => spec.action (String.ofList name) a) spec) spec
    else .error (.panic "Was not able to find component name")

/-- system_declarations.rs:79-141, one line (xml_parser.rs:207-276) -/
def SystemReader.line (R : SystemReader) (st : SpecState) (l : List Char) : Res SpecState :=
  if "//".toList.isPrefixOf l || l.isEmpty || R.skips l then .ok st
  else do
    let st ← match st.names with
      | some _ => .ok st
      | none =>
        let words := (splitOnChar ' ' l).map fun w => w.filter fun c => !R.dropName c
        if words.head? = some "system".toList then
          let names := words.tail.map fun w => without ';' (without ',' w)
          .ok ⟨some ("system".toList :: names), { st.spec with components := st.spec.components ++ names.map String.ofList }⟩
        else .error (.panic "Unexpected format of system declarations. Missing system in beginning")
    let words := splitOnChar ' ' l
    if words.head? = some "IO".toList then do
      .ok { st with spec := ← R.ioLine st.spec (st.names.getD []) words.tail }
    else .ok st

/-- system_declarations.rs:63-148 and xml_parser.rs:198-284, both called `decode_sync_type` -/
def SystemReader.decode (R : SystemReader) (text : List Char) : Res SystemSpec := do
  let st ← (splitOnChar '\n' text).foldlM R.line ⟨none, ⟨[], [], []⟩⟩
  .ok st.spec

/-- system_declarations.rs:21-23 `get_component_inputs` -/
def SystemSpec.inputsOf (spec : SystemSpec) (name : String) : Option (List String) := spec.inputs.lookup name

end Reveaal
