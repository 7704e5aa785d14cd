import Verif.Props.C46
import Verif.Examples

/-!
# C46: looking up locations by name
-/

namespace Reveaal
open ZoneLib
variable {F : Type} [ZoneLib F]
theorem Sys.getLocation_comp {c : CompComp F} {id : LocId} : (Sys.comp c).getLocation id = .ok (c.locations.lookup id) := rfl

/-- **C46** Looking up a location by its name finds the location of that name, if there is one: what is found is a location
of the system and has the name, and nothing is found only if no location has it. -/
theorem C46_get_location {s : Sys F} (hs : s.Accepted) {ls : List (LocTree F)} (hls : s.allLocs = .ok ls) (id : LocId) :
    ∃ o, s.getLocation id = .ok o ∧ (∀ l, o = some l → l ∈ ls ∧ l.id = id) ∧ (o = none → ∀ l ∈ ls, l.id ≠ id) := by
  have prod : (∀ c, s ≠ .comp c) →
      ∃ o, s.getLocation id = .ok o ∧ (∀ l, o = some l → l ∈ ls ∧ l.id = id) ∧ (o = none → ∀ l ∈ ls, l.id ≠ id) := by
    intro h
    refine ⟨ls.find? fun l => decide (l.id = id), ?_,
      fun l hl => ⟨List.mem_of_find?_eq_some hl, by simpa using List.find?_some hl⟩, fun hn l hl => ?_⟩
    · unfold Sys.getLocation
      split
      · exact absurd rfl (h _)
      · rw [hls, ok_bind]
    · simpa using List.find?_eq_none.1 hn l hl
  cases hs with
  | comp hc ho h =>
    cases hls
    have wf := compileWith_wf hc ho h
    refine ⟨_, Sys.getLocation_comp, fun l hl => ?_, fun hn l hl he => ?_⟩
    · have hm := lookup_mem hl
      exact ⟨List.mem_map.2 ⟨_, hm, rfl⟩, wf.ids _ hm⟩
    · obtain ⟨p, hp, rfl⟩ := List.mem_map.1 hl
      have := List.lookup_eq_none_iff.1 hn p hp
      rw [wf.ids _ hp] at he
      simp [he] at this
  | composition _ _ h =>
    obtain ⟨_, rfl⟩ := Sys.newComposition_eq h
    exact prod fun c e => by cases e
  | conjunction _ _ h =>
    obtain ⟨_, _, rfl⟩ := Sys.newConjunction_eq h
    exact prod fun c e => by cases e
  | quotient _ _ _ _ h =>
    obtain ⟨_, rfl⟩ := Sys.newQuotient_eq h
    exact prod fun c e => by cases e

/-- Non-vacuity: `A || B` has locations, and they are found by their names. -/
example : ∃ ls l, sysAB.allLocs = .ok ls ∧ l ∈ ls ∧ ∃ o, sysAB.getLocation l.id = .ok o ∧ o ≠ none ∧
    ∀ x, o = some x → x.id = l.id := by
  have h := getOk_eq (r := sysAB.allLocs) (by decide +kernel)
  refine ⟨_, (getOk sysAB.allLocs (by decide +kernel)).get ⟨0, by decide +kernel⟩, h, List.get_mem _ _, ?_⟩
  obtain ⟨o, h1, h2, h3⟩ := C46_get_location sysAB_accepted h
    ((getOk sysAB.allLocs (by decide +kernel)).get ⟨0, by decide +kernel⟩).id
  exact ⟨o, h1, fun hn => h3 hn _ (List.get_mem _ _) rfl, fun x hx => (h2 x hx).2⟩

end Reveaal
