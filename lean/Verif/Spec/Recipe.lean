import Verif.Model.Recipe

/-!
# Clocks of a query, as a user sees them
-/

namespace Reveaal

/-- The clock names a declaration text declares, in order: for every line that is not a comment, and every
declaration of the line that starts with the word `clock`, the non-empty names between commas and blanks. -/
def declaredClocks (text : String) : List String :=
  (splitOnChar '\n' text.toList).flatMap fun line =>
    if "//".toList.isPrefixOf line then []
    else (splitOnChar ';' line).flatMap fun decl =>
      match splitOnChar ' ' decl with
      | ty :: words =>
        if ty = "clock".toList then
          words.flatMap fun w => ((splitOnChar ',' w).filter fun n => !n.isEmpty).map String.ofList
        else []
      | [] => []

/-- The indices of all clocks of all components of a recipe, one for each clock. -/
def Recipe.clockIndices (r : Recipe) : List Nat := r.components.flatMap fun c => c.decls.clocks.map (·.2)

/-- The clocks of the quotients of a recipe. -/
def Recipe.quotientClocks : Recipe → List Nat
  | .composition l r | .conjunction l r => l.quotientClocks ++ r.quotientClocks
  | .quotient l r q => l.quotientClocks ++ r.quotientClocks ++ [q]
  | .component _ _ => []

/-- The clocks of a component are numbered from 1 without gaps or repetitions, as after reading it. -/
def Decls.Numbered (d : Decls) : Prop := (d.clocks.map (·.2)).Perm (List.range' 1 d.clocks.length)

end Reveaal
