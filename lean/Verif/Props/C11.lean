import Verif.Lemmas.Product
import Verif.Examples
import Verif.Props.C07

/-!
# C11 Exploring an accepted system never crashes on location or action lookups
-/

namespace Reveaal
open ZoneLib
variable {F : Type} [ZoneLib F]

/-- The locations that can be reached by following moves, whatever the clocks say. -/
inductive Sys.Connected (s : Sys F) : LocTree F → Prop
  | init {l} (h : s.initialLoc = .ok (some l)) : Connected s l
  | move {l a ts t} (h : Connected s l) (hn : s.next l a = .ok ts) (ht : t ∈ ts) :
      Connected s t.target

theorem Sys.next_hasAction {s : Sys F} {l : LocTree F} {a : String} {ts : List (Transition F)}
    (h : s.next l a = .ok ts) : s.hasAction a = true := by
  cases hc : s.hasAction a with
  | true => rfl
  | false =>
    cases s with
    | comp c =>
      have hc : (c.inputs.contains a || c.outputs.contains a) = false := hc
      rw [Sys.next, CompComp.next, hc] at h; cases h
    | composition l r i o lu ru cm =>
      have hc : (i.contains a || o.contains a) = false := hc
      rw [Sys.next, hc] at h; cases h
    | conjunction l r i o =>
      have hc : (i.contains a || o.contains a) = false := hc
      rw [Sys.next, hc] at h; cases h
    | quotient t s i o c n =>
      have hc : (i.contains a || o.contains a) = false := hc
      rw [Sys.next, hc] at h; cases h

theorem Sys.Connected.isLoc {s : Sys F} (hs : s.Good) {l : LocTree F} (h : s.Connected l) :
    s.IsLoc l := by
  induction h with
  | init h =>
    obtain ⟨o, h1, h2⟩ := hs.initial
    rw [h1] at h; cases h; exact h2 _ rfl
  | move _ hn ht ih =>
    obtain ⟨ts, h1, h2⟩ := hs.next _ _ ih (Sys.next_hasAction hn)
    rw [h1] at hn; cases hn; exact (h2 _ ht).1

/-- In every accepted system the initial location can be asked for without a panic; from every location
connected to it the moves of every action of the alphabet are a list, no panic, and every target is a
location of the system, again connected; and the extrapolation bounds of the location are defined. -/
theorem C11_exploration_total {s : Sys F} (h : s.Accepted) :
    (∃ o, s.initialLoc = .ok o) ∧ (∃ o, s.initialState = .ok o) ∧ (∃ ls, s.allLocs = .ok ls) ∧
    ∀ l, s.Connected l → s.IsLoc l ∧ (∃ b, s.localBounds l = .ok b) ∧
      ∀ a, a ∈ s.inputs ∨ a ∈ s.outputs → ∃ ts, s.next l a = .ok ts ∧
        ∀ t ∈ ts, s.IsLoc t.target ∧ s.Connected t.target := by
  have hg := h.good
  obtain ⟨o, ho, _⟩ := hg.initial
  refine ⟨⟨o, ho⟩, ?_, ?_, ?_⟩
  · unfold Sys.initialState
    rw [ho]
    cases o with
    | none => exact ⟨_, rfl⟩
    | some l => cases s <;> exact ⟨_, rfl⟩
  · obtain ⟨ls, hls, _⟩ := hg.all; exact ⟨ls, hls⟩
  · intro l hl
    have hloc := hl.isLoc hg
    refine ⟨hloc, hg.bounds l hloc, fun a ha => ?_⟩
    obtain ⟨ts, h1, h2⟩ := hg.next l a hloc (Sys.hasAction_iff.2 ha)
    exact ⟨ts, h1, fun t ht => ⟨(h2 t ht).1, .move hl h1 ht⟩⟩

/-- Looking at an action outside the alphabet is the only way to make the lookup panic. -/
theorem C11_unknown_action {s : Sys F} (h : s.Accepted) {l : LocTree F} (hl : s.Connected l)
    (a : String) : (∃ ts, s.next l a = .ok ts) ↔ a ∈ s.inputs ∨ a ∈ s.outputs := by
  constructor
  · rintro ⟨ts, hts⟩; exact Sys.hasAction_iff.1 (Sys.next_hasAction hts)
  · intro ha
    obtain ⟨ts, h1, _⟩ := ((C11_exploration_total h).2.2.2 l hl).2.2 a ha
    exact ⟨ts, h1⟩

/-- The locations listed by `get_all_locations` are exactly the locations of the system, and the
identifier determines the location. -/
theorem C11_all_locations {s : Sys F} (h : s.Accepted) :
    ∃ ls, s.allLocs = .ok ls ∧ (∀ l, l ∈ ls ↔ s.IsLoc l) ∧
      ∀ a ∈ ls, ∀ b ∈ ls, a.id = b.id → a = b := by
  obtain ⟨ls, h1, h2⟩ := h.good.all
  exact ⟨ls, h1, h2, fun a ha b hb => h.good.unique a b ((h2 a).1 ha) ((h2 b).1 hb)⟩

/-- Simulation never crashes: in an accepted system the decisions of a state whose location is connected
to the initial one can be computed. -/
theorem C11_decisions_total {s : Sys F} (h : s.Accepted) (st : State F) (hl : s.Connected st.loc)
    (acts : List String) (hacts : ∀ a ∈ acts, a ∈ s.inputs ∨ a ∈ s.outputs) :
    ∃ ds, Decision.fromState s.ts acts st = .ok ds := by
  have hg := h.good
  have hloc := hl.isLoc hg
  have key : ∀ a, ∃ tr, a ∈ acts → s.ts.next st.loc a = .ok tr ∧
      ∀ t ∈ tr, UpdatesOk t.updates (dim F) := by
    intro a
    by_cases ha : a ∈ acts
    · obtain ⟨ts, h1, h2⟩ := hg.next st.loc a hloc (Sys.hasAction_iff.2 (hacts a ha))
      exact ⟨ts, fun _ => ⟨h1, fun t ht => (h2 t ht).2.upd⟩⟩
    · exact ⟨[], fun h => absurd h ha⟩
  choose tr htr using key
  exact C07_no_crash s.ts st acts tr (fun a ha => (htr a ha).1) fun a ha => (htr a ha).2

/-- The hypotheses are met by the quotient `(A || B) \\ A`; it has an initial location, and locations
beyond it. -/
example : sysQ.Accepted ∧ ∃ l, sysQ.Connected l ∧ ∃ ts t, sysQ.next l "go" = .ok ts ∧ t ∈ ts ∧
    sysQ.Connected t.target := by
  refine ⟨sysQ_accepted, ?_⟩
  have hsome : (getOk sysQ.initialLoc (by decide +kernel)).isSome = true := by decide +kernel
  obtain ⟨x, hx⟩ := Option.isSome_iff_exists.1 hsome
  have hi : sysQ.initialLoc = .ok (some x) := by rw [← hx]; exact getOk_eq _
  have hgo : ((sysQ.initialLoc >>= fun o => match o with
      | some x => sysQ.next x "go"
      | none => .ok []).toOption.getD []).length ≠ 0 := by decide +kernel
  have hc : sysQ.Connected x := .init hi
  obtain ⟨ts, hts, _⟩ := sysQ_accepted.good.next x "go" (hc.isLoc sysQ_accepted.good) (by decide +kernel)
  rw [hi] at hgo
  simp only [ok_bind, hts, Except.toOption, Option.getD_some] at hgo
  cases ts with
  | nil => exact absurd rfl hgo
  | cons t ts => exact ⟨x, hc, t :: ts, t, hts, by simp, .move hc hts (by simp)⟩

end Reveaal
