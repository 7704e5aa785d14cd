import Verif.Model.Execute
import Verif.Model.SystemDecls
import Verif.Model.InputEnabler
import Verif.Model.Serialization
import Verif.Model.Loader

/-!
# Projects, loaders and runs of several queries

Models the loaders of `src/DataReader/component_loader.rs` and the run of the command line tool (`src/main.rs`).
-/

namespace Reveaal
open ZoneLib

/-! ## Loaders -/

/-- component_loader.rs:110-115 `trait ComponentLoader`, for a loader with state `σ` (the settings are part of `QueryEnv`) -/
structure ComponentLoader (σ : Type) where
  get : σ → String → Res (Component × σ)
  save : σ → Component → Res σ

/-- `assert_eq!(component_name, component.name)` and the panic if there is none (component_loader.rs:125-130, 223-228) -/
def namedEntry (m : List (String × Component)) (name : String) : Res Component :=
  match m.lookup name with
  | some c => if name = c.name then .ok c else .error (.panic "assertion failed")
  | none => .error (.panic "The component could not be retrieved")

/-- component_loader.rs:123-142, `ComponentContainer` (the loader of the server): saving does nothing -/
def containerLoader : ComponentLoader (List (String × Component)) where
  get m name := do .ok (← namedEntry m name, m)
  save m _ := .ok m

section
variable {Z : Nat → Type} [∀ d, ZoneLib (Z d)]

/-- component_loader.rs:160-171, the container of the components of a request -/
def containerOf (Z : Nat → Type) [∀ d, ZoneLib (Z d)] (cs : List Component) : Res (List (String × Component)) :=
  cs.foldlM (fun m c => do
    let c ← makeInputEnabled (Z c.decls.clocks.length) c (c.specificActions .input)
    .ok (hmInsert c.name c m)) []

/-- component_loader.rs:207-213 `JsonProjectLoader`: the files in the folder `Components` (`none`: there is no such file, or
it is not a JSON object of a component), what is loaded, and the system declarations -/
structure Project where
  files : String → Option RawComponent
  loaded : List (String × Component)
  spec : SystemSpec

/-- component_loader.rs:278-286, the component that is loaded, with json_reader.rs:24-41 `read_json_component` -/
def Project.read (Z : Nat → Type) [∀ d, ZoneLib (Z d)] (P : Project) (name : String) : Res Component :=
  match P.files name with
  | none => .error (.panic "Could not find file")
  | some raw =>
    orPanic raw.read >>= fun c =>
      match P.spec.inputsOf c.name with
      | some inputs => makeInputEnabled (Z c.decls.clocks.length) c inputs
      | none => .ok c

/-- component_loader.rs:278-290 `load_component` -/
def Project.load (Z : Nat → Type) [∀ d, ZoneLib (Z d)] (P : Project) (name : String) : Res Project := do
  .ok { P with loaded := hmInsert name (← P.read Z name) P.loaded }

/-- component_loader.rs:215-229 `get_component` -/
def Project.get (Z : Nat → Type) [∀ d, ZoneLib (Z d)] (P : Project) (name : String) : Res (Component × Project) := do
  let P ← if (P.loaded.lookup name).isSome then .ok P else P.load Z name
  .ok (← namedEntry P.loaded name, P)

/-- component_loader.rs:231-235 `save_component` with json_writer.rs:4-13 `component_to_json_file` -/
def Project.save (P : Project) (c : Component) : Res Project := do
  let raw ← orPanic c.write
  .ok { P with
    files := fun n => if n = c.name then some raw else P.files n
    loaded := hmInsert c.name c P.loaded }

/-- component_loader.rs:215-243 `impl ComponentLoader for JsonProjectLoader` -/
def jsonLoader (Z : Nat → Type) [∀ d, ZoneLib (Z d)] : ComponentLoader Project := ⟨Project.get Z, Project.save⟩

/-- component_loader.rs:262-276 `new_loader` -/
def openProject (files : String → Option RawComponent) (declarations : List Char) : Res Project := do
  .ok ⟨files, [], ← jsonSystem.decode declarations⟩

/-- component_loader.rs:305-325 `XmlProjectLoader`: like a container, but components cannot be saved -/
def xmlLoader : ComponentLoader (List (String × Component)) where
  get m name := do .ok (← namedEntry m name, m)
  save _ _ := .error (.panic "Saving components is not supported for XML projects")

/-- component_loader.rs:347-371 `XmlProjectLoader::new_loader`, from the components and declarations in the XML file -/
def openXml (Z : Nat → Type) [∀ d, ZoneLib (Z d)] (cs : List Component) (spec : SystemSpec) :
    Res (List (String × Component)) :=
  cs.foldlM (fun m c => do
    let c ← match spec.inputsOf c.name with
      | some inputs => makeInputEnabled (Z c.decls.clocks.length) c inputs
      | none => .ok c
    .ok (hmInsert c.name c m)) []

/-! ## Queries -/

/-- extract_system_rep.rs:306-347 `get_system_recipe`, with a loader that changes -/
def ComponentLoader.recipe {σ : Type} (L : ComponentLoader σ) :
    SysExpr → Nat → Option Nat → σ → Res ((Recipe × Nat × Option Nat) × σ)
  | .composition l r, dim, q, st => do
    let ((l, dim, q), st) ← L.recipe l dim q st
    let ((r, dim, q), st) ← L.recipe r dim q st
    .ok ((.composition l r, dim, q), st)
  | .conjunction l r, dim, q, st => do
    let ((l, dim, q), st) ← L.recipe l dim q st
    let ((r, dim, q), st) ← L.recipe r dim q st
    .ok ((.conjunction l r, dim, q), st)
  | .quotient l r, dim, q, st => do
    let ((l, dim, q), st) ← L.recipe l dim q st
    let ((r, dim, q), st) ← L.recipe r dim q st
    match q with
    | some i => .ok ((.quotient l r i, dim, some i), st)
    | none => .ok ((.quotient l r (dim + 1), dim + 1, some (dim + 1)), st)
  | .component name id, dim, q, st => do
    let (c, st) ← L.get st name
    let x := c.setClockIndices dim
    .ok ((.component x.1 id, x.2, q), st)

/-- extract_system_rep.rs:42-172 `create_executable_query` with the `execute` of executable_query.rs:74-140, and what the
loader is afterwards -/
def QueryEnv.exec {σ : Type} (X : QueryEnv Z) (L : ComponentLoader σ) (st : σ) : QueryExpr → Res (QueryOutcome Z × σ)
  | .refinement e e' => do
    let ((l, d, q), st) ← L.recipe e 0 none st
    let ((r, d, q), st) ← L.recipe e' d q st
    .ok (← X.refinementOf l r d q, st)
  | .reachability e start goal => do
    let ((r, d, _), st) ← L.recipe e 0 none st
    .ok (← X.reachabilityOf r d start goal, st)
  | .consistency e => do
    let ((r, d, q), st) ← L.recipe e 0 none st
    let ⟨d, s⟩ ← X.systemOf r d q
    .ok (.consistency d (← s.precheck (X.checks d s) X.fuel), st)
  | .determinism e => do
    let ((r, d, q), st) ← L.recipe e 0 none st
    let ⟨d, s⟩ ← X.systemOf r d q
    .ok (.determinism d (← s.checkDet (X.checks d s) X.fuel), st)
  | .getComponent e => do
    let ((r, d, q), st) ← L.recipe e.system 0 none st
    let c ← X.componentOf false (← X.systemOf r d q) e.name
    .ok (.getComponent c, ← L.save st c)
  | .prune e => do
    let ((r, d, q), st) ← L.recipe e.system 0 none st
    let c ← X.componentOf true (← X.systemOf r d q) e.name
    .ok (.getComponent c, ← L.save st c)
  | .implementation _ | .specification _ | .bisimMinim _ => .error (.err "Not yet setup to handle query")

/-- main.rs:32-49 `start_using_cli`, the loop: the results, and the loader at the end.  The hash orders and step bounds may
be different for every query. -/
def session {σ : Type} (L : ComponentLoader σ) : List (QueryEnv Z × QueryExpr) → σ → Res (List (QueryOutcome Z) × σ)
  | [], st => .ok ([], st)
  | (X, q) :: qs, st => do
    let (A, st) ← orPanic (X.exec L st q)
    let (As, st) ← session L qs st
    .ok (A :: As, st)

/-- cli.rs:62-64 `query_check` and main.rs:70-75: the queries of a run, given the text on the command line and the queries
stored in the project -/
def cliQueries (text : List Char) (stored : List QueryExpr) : Res (List QueryExpr) := do
  let qs ← parseQueries text
  if text.isEmpty then .ok stored else .ok qs

end
end Reveaal
