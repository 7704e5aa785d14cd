import Verif.Spec.Semantics
import Verif.Model.ClockReduction

/-!
# Names and updates of ordinary systems
-/

namespace Reveaal
open ZoneLib

/-- A location name without brackets and operator characters. -/
def CleanName (n : String) : Prop := ∀ c ∈ n.toList, c ∉ ['(', ')', '|', '&', '\\', '[', ']']

instance (n : String) : Decidable (CleanName n) := by unfold CleanName; infer_instance

namespace Sys
variable {F : Type} [ZoneLib F]

omit [ZoneLib F] in
/-- All components of the system have clean location names. -/
def CleanNames : Sys F → Prop
  | comp c => ∀ p ∈ c.locations, ∀ n, p.1 = .simple n → CleanName n
  | composition l r _ _ _ _ _ => l.CleanNames ∧ r.CleanNames
  | conjunction l r _ _ => l.CleanNames ∧ r.CleanNames
  | quotient t s _ _ _ _ => t.CleanNames ∧ s.CleanNames

/-- All updates in the components of the system, and the reset of quotient clocks, satisfy `P`. -/
def AllUpdates (P : CUpdate → Prop) : Sys F → Prop
  | comp c => ∀ q ∈ c.edges, ∀ y ∈ q.2, ∀ u ∈ y.2.updates, P u
  | composition l r _ _ _ _ _ => l.AllUpdates P ∧ r.AllUpdates P
  | conjunction l r _ _ => l.AllUpdates P ∧ r.AllUpdates P
  | quotient t s _ _ clock _ => t.AllUpdates P ∧ s.AllUpdates P ∧ P ⟨clock, 0⟩

/-- The values assigned to clocks are `i32` numbers, as in the code. -/
def I32Updates (s : Sys F) : Prop := s.AllUpdates fun u => u.value < 2147483648

omit [ZoneLib F] in
/-- Decides `CleanNames`. -/
def decCleanNames : (s : Sys F) → Decidable s.CleanNames
  | comp c => by
    have : ∀ p : LocId × LocTree F, Decidable (∀ n, p.1 = .simple n → CleanName n) := fun p =>
      match h : p.1 with
      | .simple n => decidable_of_iff (CleanName n) ⟨fun hn m hm => by cases hm; exact hn, fun hn => hn n rfl⟩
      | .conjunction _ _ | .composition _ _ | .quotient _ _ | .special _ | .any => isTrue fun n hn => by cases hn
    unfold CleanNames; infer_instance
  | composition l r _ _ _ _ _ => by
    have := decCleanNames l; have := decCleanNames r; unfold CleanNames; infer_instance
  | conjunction l r _ _ => by
    have := decCleanNames l; have := decCleanNames r; unfold CleanNames; infer_instance
  | quotient t s _ _ _ _ => by
    have := decCleanNames t; have := decCleanNames s; unfold CleanNames; infer_instance

instance (s : Sys F) : Decidable s.CleanNames := s.decCleanNames

omit [ZoneLib F] in
/-- The names of the components' locations can be read off the printed name of a location: the system is a single
component, or its components have clean location names. -/
def Readable : Sys F → Prop
  | comp _ => True
  | s => s.CleanNames

omit [ZoneLib F] in
theorem CleanNames.readable {s : Sys F} (h : s.CleanNames) : s.Readable := by
  cases s <;> first | trivial | exact h

instance (s : Sys F) : Decidable s.Readable :=
  match s with
  | comp _ => isTrue trivial
  | composition l r a b c d e => decCleanNames (composition l r a b c d e)
  | conjunction l r a b => decCleanNames (conjunction l r a b)
  | quotient t s a b c d => decCleanNames (quotient t s a b c d)

omit [ZoneLib F] in
/-- Decides `AllUpdates`. -/
def decAllUpdates (P : CUpdate → Prop) [DecidablePred P] : (s : Sys F) → Decidable (s.AllUpdates P)
  | comp c => by unfold AllUpdates; infer_instance
  | composition l r _ _ _ _ _ => by
    have := decAllUpdates P l; have := decAllUpdates P r; unfold AllUpdates; infer_instance
  | conjunction l r _ _ => by
    have := decAllUpdates P l; have := decAllUpdates P r; unfold AllUpdates; infer_instance
  | quotient t s _ _ _ _ => by
    have := decAllUpdates P t; have := decAllUpdates P s; unfold AllUpdates; infer_instance

instance (s : Sys F) : Decidable s.I32Updates := s.decAllUpdates _

end Sys
end Reveaal
