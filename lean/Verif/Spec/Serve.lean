import Verif.Model.Serve
import Verif.Spec.Server

/-!
# What a request is about

The specification of C68: the components a request sends.
-/

namespace Reveaal
open ZoneLib
variable {Z : Nat → Type} [∀ d, ZoneLib (Z d)]

/-- The message describes these components: one in JSON, or those of an XML project.  (How descriptions are read is the subject
of C53 and C67.) -/
inductive ProtoComponent.Describes : ProtoComponent → List Component → Prop
  | json {raw c} (h : raw.read = .ok c) : Describes (.json (some raw)) [c]
  | xml {x cs} (h : x.components = .ok cs) : Describes (.xml (some x)) cs
  | empty : Describes .empty []

/-- Every message describes components, together these. -/
def Sends (ps : List ProtoComponent) (cs : List Component) : Prop :=
  ∃ css, List.Forall₂ ProtoComponent.Describes ps css ∧ cs = css.flatten

/-- What `name` means in a request with the components `cs`: the last component with this name, input-enabled for its own
inputs. -/
def InRequest (Z : Nat → Type) [∀ d, ZoneLib (Z d)] (cs : List Component) (name : String) (c : Component) : Prop :=
  ∃ pre c0 post, cs = pre ++ c0 :: post ∧ c0.name = name ∧ (∀ c1 ∈ post, c1.name ≠ name) ∧
    makeInputEnabled (Z c0.decls.clocks.length) c0 (c0.specificActions .input) = .ok c

/-- All components can be input-enabled. -/
def Enableable (Z : Nat → Type) [∀ d, ZoneLib (Z d)] (cs : List Component) : Prop :=
  ∀ c ∈ cs, ∃ c', makeInputEnabled (Z c.decls.clocks.length) c (c.specificActions .input) = .ok c'

end Reveaal
