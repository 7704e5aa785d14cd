import Verif.Spec.System

/-!
# Partially specified locations
-/

namespace Reveaal
variable {F : Type} [ZoneLib F]

/-- `pattern.Matches loc`: every position the pattern names has that name in the location; unspecified
positions match anything. -/
inductive LocId.Matches : LocId → LocId → Prop
  | any (l : LocId) : Matches .any l
  | simple (n : String) : Matches (.simple n) (.simple n)
  | special (s : SpecialLoc) : Matches (.special s) (.special s)
  | conjunction {p q l r : LocId} (h1 : Matches p l) (h2 : Matches q r) :
      Matches (.conjunction p q) (.conjunction l r)
  | composition {p q l r : LocId} (h1 : Matches p l) (h2 : Matches q r) :
      Matches (.composition p q) (.composition l r)
  | quotient {p q l r : LocId} (h1 : Matches p l) (h2 : Matches q r) :
      Matches (.quotient p q) (.quotient l r)

/-- The locations a query about a system can ask for: for every component one of its locations or none in
particular, put together in the shape of the system. -/
def Sys.IsPattern : Sys F → LocTree F → Prop
  | .comp c, e => e = LocTree.anyLoc ∨ (Sys.comp c).IsLoc e
  | .composition l r _ _ _ _ _, e =>
    ∃ a b, l.IsPattern a ∧ r.IsPattern b ∧ LocTree.compose a b .composition = .ok e
  | .conjunction l r _ _, e =>
    ∃ a b, l.IsPattern a ∧ r.IsPattern b ∧ LocTree.compose a b .conjunction = .ok e
  | .quotient t s _ _ _ _, e => ∃ a b, t.IsPattern a ∧ s.IsPattern b ∧ e = LocTree.merge a b

end Reveaal
