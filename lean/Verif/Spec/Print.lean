import Verif.Model.Print
import Verif.Spec.Report

/-!
# What a user can read off a printed result
-/

namespace Reveaal

/-- Letters, digits and underscores only -/
def IsWordText (s : String) : Prop := ∀ c ∈ s.toList, Text.isWord c = true

/-- Without the quotation mark that names of systems are shown in -/
def Quotable (s : String) : Prop := '\'' ∉ s.toList

/-! ## What a reader has to learn: two reports are the same in all they show -/

/-- The same locations of components of the same names, put together in the same way; numbers of instances are not compared. -/
def SpecificLoc.Same : SpecificLoc → SpecificLoc → Prop
  | .component c l, .component c' l' => c.name = c'.name ∧ l = l'
  | .branch l r op, .branch l' r' op' => l.Same l' ∧ r.Same r' ∧ op = op'
  | .special k, .special k' => k = k'
  | _, _ => False

/-- The same ambiguity -/
def DetReport.Same (x y : DetReport) : Prop :=
  x.system = y.system ∧ x.action = y.action ∧ x.isInput = y.isInput ∧ x.state.locations.Same y.state.locations

/-- No output saves system `s` in state `a`. -/
def ConsReport.Stuck (s : String) (a : SpecificState) (x : ConsReport) : Prop :=
  x = .inconsistentLoc s a ∨ x = .inconsistentFrom s a

/-- The same inconsistency; the two kinds of states nothing saves the system from are not told apart. -/
inductive ConsReport.Same : ConsReport → ConsReport → Prop
  | noInitialState {s : String} : Same (.noInitialState s) (.noInitialState s)
  | notDeterministic {f g : DetReport} : f.Same g → Same (.notDeterministic f) (.notDeterministic g)
  | stuck {x y : ConsReport} {s : String} {a b : SpecificState} : x.Stuck s a → y.Stuck s b →
      a.locations.Same b.locations → Same x y

/-- The same set of inputs or outputs of the same system -/
def ActionSet.Same (x y : ActionSet) : Prop :=
  x.system = y.system ∧ x.isInput = y.isInput ∧ ∀ a, a ∈ x.actions ↔ a ∈ y.actions

/-- The same reason for the failure of a refinement -/
inductive RefinementReport.Same : RefinementReport → RefinementReport → Prop
  | state {s : String} {f g : RefReport} : f.cuts = g.cuts → f.action = g.action → f.isInput = g.isInput →
      f.state.locations.Same g.state.locations → Same (.state s f) (.state s g)
  | emptyChild {c s : String} : Same (.emptyChild c s) (.emptyChild c s)
  | emptyInitial {s : String} : Same (.emptyInitial s) (.emptyInitial s)
  | inconsistentChild {s : String} {f g : ConsReport} : f.Same g → Same (.inconsistentChild f s) (.inconsistentChild g s)
  | actionMismatch {s : String} {f g : ActionFailure} : f.subset = g.subset → f.left.Same g.left → f.right.Same g.right →
      Same (.actionMismatch f s) (.actionMismatch g s)

/-- The same result: the same verdict, with the same reason if a refinement fails and the same steps if a path is found.  Why a
system is not consistent or not deterministic, and which component was made, is not printed. -/
inductive QueryReport.Same : QueryReport → QueryReport → Prop
  | refines : Same (.refinement none) (.refinement none)
  | refinesNot {f g : RefinementReport} : f.Same g → Same (.refinement (some f)) (.refinement (some g))
  | reachable {p q : List SpecificDecision} :
      List.Forall₂ (fun x y => x.action = y.action ∧ x.source.locations.Same y.source.locations) p q →
      Same (.reachability (some p)) (.reachability (some q))
  | unreachable : Same (.reachability none) (.reachability none)
  | consistent : Same (.consistency none) (.consistency none)
  | consistentNot {f g : ConsReport} : Same (.consistency (some f)) (.consistency (some g))
  | deterministic : Same (.determinism none) (.determinism none)
  | deterministicNot {f g : DetReport} : Same (.determinism (some f)) (.determinism (some g))
  | created {c d : Component} : Same (.getComponent c) (.getComponent d)

/-- The result is of the kind the query asks for. -/
def QueryReport.Answers : QueryExpr → QueryReport → Prop
  | .refinement _ _, x => ∃ o, x = .refinement o
  | .consistency _, x => ∃ o, x = .consistency o
  | .determinism _, x => ∃ o, x = .determinism o
  | .reachability _ _ _, x => ∃ o, x = .reachability o
  | .getComponent _, x | .prune _, x => ∃ c, x = .getComponent c
  | .implementation _, _ | .specification _, _ | .bisimMinim _, _ => False

/-! ## Names that can be read -/

/-- The names of components and of their locations are words. -/
def SpecificLoc.Readable (x : SpecificLoc) : Prop := ∀ p ∈ x.leaves, IsWordText p.1.name ∧ IsWordText p.2

/-- All names are words; that of a system need only be without the quotation mark. -/
def DetReport.Readable (x : DetReport) : Prop :=
  Quotable x.system ∧ IsWordText x.action ∧ x.state.locations.Readable

/-- See `DetReport.Readable`. -/
def ConsReport.Readable : ConsReport → Prop
  | .noInitialState s => Quotable s
  | .notDeterministic f => f.Readable
  | .inconsistentLoc s a | .inconsistentFrom s a => Quotable s ∧ a.locations.Readable

/-- See `DetReport.Readable`. -/
def ActionSet.Readable (x : ActionSet) : Prop := Quotable x.system ∧ ∀ a ∈ x.actions, IsWordText a

/-- See `DetReport.Readable`. -/
def RefinementReport.Readable : RefinementReport → Prop
  | .state s f => Quotable s ∧ IsWordText f.action ∧ f.state.locations.Readable
  | .emptyChild c s => Quotable c ∧ Quotable s
  | .emptyInitial s => Quotable s
  | .inconsistentChild f s => f.Readable ∧ Quotable s
  | .actionMismatch f s => f.left.Readable ∧ f.right.Readable ∧ Quotable s

/-- See `DetReport.Readable`; only what is printed counts. -/
def QueryReport.Readable : QueryReport → Prop
  | .refinement (some f) => f.Readable
  | .reachability (some p) => ∀ x ∈ p, IsWordText x.action ∧ x.source.locations.Readable
  | _ => True

/-- The names of the component, of its locations and of its actions are words. -/
def Component.Words (c : Component) : Prop :=
  IsWordText c.name ∧ (∀ l ∈ c.locations, IsWordText l.id) ∧ ∀ e ∈ c.edges, IsWordText e.action

/-- All components are of this kind. -/
def Recipe.Words (r : Recipe) : Prop := ∀ c ∈ r.components, c.Words

end Reveaal
