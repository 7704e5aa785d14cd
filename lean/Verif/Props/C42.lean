import Verif.Lemmas.Display
import Verif.Props.C24

/-!
# C42: printed location identifiers identify locations
-/

namespace Reveaal
open ZoneLib

variable {F : Type} [ZoneLib F]

/-- **C42 (part).** Two locations of a system print to different texts, both as shown to the user and used as names in
saved components (`display`) and as used as keys by the clock reduction (`uniqueString`).  Not covered, and false: systems in
which location names contain brackets or operators, see `C42_violated`. -/
theorem C42_identify_partial {s : Sys F} (hs : s.Accepted) (hn : s.CleanNames) {l m : LocTree F}
    (hl : s.IsLoc l) (hm : s.IsLoc m) (hne : l ≠ m) :
    l.id.display ≠ m.id.display ∧ l.id.uniqueString ≠ m.id.uniqueString :=
  ⟨fun h => hne (hs.display_inj hn.readable hl hm h), fun h => hne (hs.string_inj hn hl hm h)⟩

/-- **C42 is violated** when location names contain operators: the composition of locations `a` and `b||c` is printed like the
composition of `a||b` and `c`.  Both are locations of the system. -/
theorem C42_violated : sysOdd.Accepted ∧ ∃ l m, sysOdd.IsLoc l ∧ sysOdd.IsLoc m ∧ l ≠ m ∧
    l.id.display = m.id.display ∧ l.id.uniqueString = m.id.uniqueString := by
  let a : LocTree Fed4 := .leaf (.simple "a") none .initial
  let bc : LocTree Fed4 := .leaf (.simple "b||c") none .initial
  let ab : LocTree Fed4 := .leaf (.simple "a||b") none .normal
  let c : LocTree Fed4 := .leaf (.simple "c") none .normal
  have ha : sysOddA.IsLoc a := ⟨(.simple "a", a), .head _, rfl⟩
  have hab : sysOddA.IsLoc ab := ⟨(.simple "a||b", ab), .tail _ (.head _), rfl⟩
  have hbc : sysOddB.IsLoc bc := ⟨(.simple "b||c", bc), .head _, rfl⟩
  have hc : sysOddB.IsLoc c := ⟨(.simple "c", c), .tail _ (.head _), rfl⟩
  refine ⟨sysOdd_accepted, getOk (LocTree.compose a bc .composition) rfl, getOk (LocTree.compose ab c .composition) rfl,
    ⟨a, bc, ha, hbc, rfl⟩, ⟨ab, c, hab, hc, rfl⟩, ?_, by decide +kernel, by decide +kernel⟩
  intro h
  have := congrArg (fun x : LocTree Fed4 => x.id) h
  revert this
  decide +kernel

/-- The hypotheses hold of an example with two locations. -/
example : sysTwins.CleanNames ∧ ∃ l m, sysTwins.IsLoc l ∧ sysTwins.IsLoc m ∧ l ≠ m := by
  refine ⟨by decide +kernel, _, _, ⟨_, .head _, rfl⟩, ⟨_, .tail _ (.head _), rfl⟩, ?_⟩
  intro h
  have := congrArg (fun x : LocTree Fed4 => x.id) h
  revert this
  decide +kernel

end Reveaal
