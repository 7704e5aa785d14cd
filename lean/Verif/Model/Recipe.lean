import Verif.Model.LocalConsistency

/-!
# From system expressions to systems

Models the reading of declarations (`src/DataReader/serialization.rs`, `src/DataReader/xml_parser.rs`), the
building of system recipes with clock indices, their compilation, and clock reduction
(`src/System/extract_system_rep.rs`, `src/TransitionSystems/transition_system.rs`,
`src/ModelObjects/component.rs`).
-/

namespace Reveaal

/-! ## Declarations -/

/-- `str::split` with one separator character (std, used at xml_parser.rs:151-183) -/
def splitOnChar (sep : Char) : List Char → List (List Char)
  | [] => [[]]
  | x :: xs =>
    if x = sep then [] :: splitOnChar sep xs
    else
      match splitOnChar sep xs with
      | [] => [[x]]
      | w :: ws => (x :: w) :: ws

/-- serialization.rs:186-188: the maps and the counter -/
structure DeclState where
  ints : List (String × Int)
  clocks : List (String × Nat)
  counter : Nat

/-- serialization.rs:205-210, one name of a clock declaration -/
def DeclState.addClock (st : DeclState) (name : List Char) : DeclState :=
  if name.isEmpty then st
  else { st with clocks := hmInsert (String.ofList name) st.counter st.clocks, counter := st.counter + 1 }

/-- serialization.rs:217-219, one name of an integer declaration -/
def DeclState.addInt (st : DeclState) (name : List Char) : DeclState :=
  { st with ints := hmInsert (String.ofList name) 0 st.ints }

/-- serialization.rs:197-224, one declaration -/
def DeclState.subDecl (st : DeclState) (decl : List Char) : Res DeclState :=
  if decl.isEmpty then .ok st
  else
    match splitOnChar ' ' decl with
    | [] => .error (.panic "index out of bounds")
    | ty :: words =>
      if ty = "clock".toList then
        .ok (words.foldl (fun st w => (splitOnChar ',' w).foldl DeclState.addClock st) st)
      else if ty = "int".toList then
        .ok (words.foldl (fun st w => (splitOnChar ',' w).foldl DeclState.addInt st) st)
      else .error (.panic "Not implemented read for type")

/-- serialization.rs:189-225, one line; comments and empty lines are skipped -/
def DeclState.line (st : DeclState) (l : List Char) : Res DeclState :=
  if "//".toList.isPrefixOf l || l.isEmpty then .ok st
  else (splitOnChar ';' l).foldlM DeclState.subDecl st

/-- serialization.rs:179-228 `decode_declarations`.  The XML reader has the same code
(xml_parser.rs:149-196) but drops carriage returns first. -/
def decodeDeclarations (text : String) : Res Decls := do
  let st ← (splitOnChar '\n' text.toList).foldlM DeclState.line ⟨[], [], 1⟩
  .ok ⟨st.ints, st.clocks⟩

/-- component.rs:205-209 `Declarations::set_clock_indices` -/
def Decls.setClockIndices (d : Decls) (start : Nat) : Decls :=
  { d with clocks := d.clocks.map fun p => (p.1, p.2 + start) }

/-- component.rs:37-40 `Component::set_clock_indices`: the component and the new counter -/
def Component.setClockIndices (c : Component) (indices : Nat) : Component × Nat :=
  ({ c with decls := c.decls.setClockIndices indices }, indices + c.decls.clocks.length)

/-! ## Recipes -/

/-- query_expression.rs `enum SystemExpression` -/
inductive SysExpr where
  | composition (l r : SysExpr)
  | conjunction (l r : SysExpr)
  | quotient (l r : SysExpr)
  | component (name : String) (specialId : Option String)
deriving DecidableEq, Repr

/-- extract_system_rep.rs:176-182 `enum SystemRecipe`; the field `special_id` of the component is kept
beside it. -/
inductive Recipe where
  | composition (l r : Recipe)
  | conjunction (l r : Recipe)
  | quotient (l r : Recipe) (clock : Nat)
  | component (c : Component) (specialId : Option String)
deriving DecidableEq, Repr

namespace Recipe

/-- extract_system_rep.rs:273-285 `get_components` (and 260-271 `get_components_mut`) -/
def components : Recipe → List Component
  | composition l r | conjunction l r | quotient l r _ => l.components ++ r.components
  | component c _ => [c]

/-- The components with their special ids (extract_system_rep.rs:264-280) -/
def namedComponents : Recipe → List (Component × Option String)
  | composition l r | conjunction l r | quotient l r _ => l.namedComponents ++ r.namedComponents
  | component c i => [(c, i)]

/-- What the `for_each` over `get_components_mut` does (extract_system_rep.rs:258, 378) -/
def mapComponents (f : Component → Component) : Recipe → Recipe
  | composition l r => .composition (l.mapComponents f) (r.mapComponents f)
  | conjunction l r => .conjunction (l.mapComponents f) (r.mapComponents f)
  | quotient l r q => .quotient (l.mapComponents f) (r.mapComponents f) q
  | component c i => .component (f c) i

/-- extract_system_rep.rs:287-300 `change_quotient` -/
def changeQuotient (index : Nat) : Recipe → Recipe
  | composition l r => .composition (l.changeQuotient index) (r.changeQuotient index)
  | conjunction l r => .conjunction (l.changeQuotient index) (r.changeQuotient index)
  | quotient l r _ => .quotient (l.changeQuotient index) (r.changeQuotient index) index
  | component c i => .component c i

end Recipe

/-- extract_system_rep.rs:306-347 `get_system_recipe`.  `load` is `component_loader.get_component`, which
may panic.  Returns the recipe, the new `clock_index` and the new `quotient_index`. -/
def getSystemRecipe (load : String → Res Component) : SysExpr → Nat → Option Nat →
    Res (Recipe × Nat × Option Nat)
  | .composition l r, dim, q => do
    let (l, dim, q) ← getSystemRecipe load l dim q
    let (r, dim, q) ← getSystemRecipe load r dim q
    .ok (.composition l r, dim, q)
  | .conjunction l r, dim, q => do
    let (l, dim, q) ← getSystemRecipe load l dim q
    let (r, dim, q) ← getSystemRecipe load r dim q
    .ok (.conjunction l r, dim, q)
  | .quotient l r, dim, q => do
    let (l, dim, q) ← getSystemRecipe load l dim q
    let (r, dim, q) ← getSystemRecipe load r dim q
    match q with
    | some i => .ok (.quotient l r i, dim, some i)
    | none => .ok (.quotient l r (dim + 1), dim + 1, some (dim + 1))
  | .component name id, dim, q => do
    let c ← load name
    let x := c.setClockIndices dim
    .ok (.component x.1 id, x.2, q)

/-- extract_system_rep.rs:47-57 (two sides of a refinement), 77, 104-110 and so on (one side): the recipes of
the expressions of a query, with one counter. -/
def getRecipes (load : String → Res Component) : List SysExpr → Nat → Option Nat →
    Res (List Recipe × Nat × Option Nat)
  | [], dim, q => .ok ([], dim, q)
  | e :: es, dim, q => do
    let (r, dim, q) ← getSystemRecipe load e dim q
    let (rs, dim, q) ← getRecipes load es dim q
    .ok (r :: rs, dim, q)

end Reveaal
