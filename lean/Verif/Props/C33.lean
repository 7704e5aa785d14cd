import Verif.Lemmas.Protocol
import Verif.Props.C54

/-!
# C33 Locations survive the protocol round trip

The server builds the system anew for every request, so the location is read with a second build of the same
recipe, whose hash maps may be iterated in other orders.
-/

namespace Reveaal
open ZoneLib
variable {F : Type} [ZoneLib F]

/-- **C33** A location of a system can be sent, and a server that builds the same system and reads the message has
exactly that location. -/
theorem C33_round_trip {r : Recipe} {env env' : CompileEnv F} {j j' : Nat} {s s' : Sys F} (he : env.Perm)
    (he' : env'.Perm) (hr : r.Ok (dim F)) (hs : r.compile env 0 = .ok (s, j)) (hs' : r.compile env' 0 = .ok (s', j'))
    {l : LocTree F} (hl : s.IsLoc l) : ∃ p, sendLocation s l = .ok p ∧ readLocation s' p = .ok l := by
  obtain ⟨hb, _⟩ := Recipe.compile_rebuilt he he' hs hs'
  obtain ⟨p, h1, h2⟩ := send_read_location (Recipe.compile_accepted he' hr hs') ((hb.locs l).1 hl)
  refine ⟨p, ?_, h2⟩
  rw [sendLocation, hb.infos]; exact h1

/-- **C33** In particular every location that is reached. -/
theorem C33_reachable {r : Recipe} {env env' : CompileEnv F} {j j' : Nat} {s s' : Sys F} (he : env.Perm)
    (he' : env'.Perm) (hr : r.Ok (dim F)) (hs : r.compile env 0 = .ok (s, j)) (hs' : r.compile env' 0 = .ok (s', j'))
    {l : LocTree F} {v : Val} (hl : s.ts.Reach l v) :
    ∃ p, sendLocation s l = .ok p ∧ readLocation s' p = .ok l :=
  C33_round_trip he he' hr hs hs' (good_reach (Recipe.compile_accepted he hr hs).good hl).1

/-- **C33** The same within one build, for every system the tool accepts. -/
theorem C33_same_system {s : Sys F} (hs : s.Accepted) {l : LocTree F} (hl : s.IsLoc l) :
    ∃ p, sendLocation s l = .ok p ∧ readLocation s p = .ok l := send_read_location hs hl

/-! ## Examples -/

/-- `A` again, with its clock at index 3. -/
def exA3 : Component := { exA with decls := ⟨[], [("x", 3)]⟩ }

/-- `A \\ A`: two instances of one component, quotient clock 2. -/
def exRecipeAA : Recipe := .quotient (.component exA none) (.component exA3 none) 2

/-- Two environments: the second visits the locations in the opposite order. -/
def exEnvAA : CompileEnv Fed4 := ⟨fun _ l => l, fun _ => ⟨fun _ => ["go", "out"], fun _ => ["go"], fun _ => ["out"]⟩, 20⟩
def exEnvAA' : CompileEnv Fed4 := { exEnvAA with locOrder := fun _ l => l.reverse }

def sysAA : Sys Fed4 := (getOk (exRecipeAA.compile exEnvAA 0) (by decide +kernel)).1
def sysAA' : Sys Fed4 := (getOk (exRecipeAA.compile exEnvAA' 0) (by decide +kernel)).1

theorem exRecipeAA_ok : exRecipeAA.Ok (dim Fed4) := by
  refine ⟨fun c hc => ?_, fun q hq => ?_⟩
  · simp only [exRecipeAA, Recipe.components, List.cons_append, List.nil_append, List.mem_cons, List.not_mem_nil,
      or_false] at hc
    rcases hc with rfl | rfl <;> exact Component.ok_of_okB (by decide)
  · simp only [exRecipeAA, Recipe.quotientClocks, List.nil_append, List.mem_singleton] at hq
    rw [hq]; decide

theorem exEnvAA_perm : exEnvAA.Perm := fun _ _ => .refl _
theorem exEnvAA'_perm : exEnvAA'.Perm := fun _ l => List.reverse_perm l

theorem sysAA_eq : exRecipeAA.compile exEnvAA 0 = .ok (sysAA, 2) := by
  have := getOk_eq (r := exRecipeAA.compile exEnvAA 0) (by decide +kernel)
  rw [this]; rfl
theorem sysAA'_eq : exRecipeAA.compile exEnvAA' 0 = .ok (sysAA', 2) := by
  have := getOk_eq (r := exRecipeAA.compile exEnvAA' 0) (by decide +kernel)
  rw [this]; rfl

/-- Non-vacuity: the hypotheses hold of the initial location of `A \\ A`, and the message names both instances. -/
example : ∃ l, sysAA.initialLoc = .ok (some l) ∧ sysAA.IsLoc l ∧
    sendLocation sysAA l = .ok (.binary (.leaf "L0" (some ⟨"A", 0⟩)) (.leaf "L0" (some ⟨"A", 1⟩)) 2) ∧
    readLocation sysAA' (.binary (.leaf "L0" (some ⟨"A", 0⟩)) (.leaf "L0" (some ⟨"A", 1⟩)) 2) = .ok l := by
  obtain ⟨o, ho, hl⟩ := (Recipe.compile_accepted exEnvAA_perm exRecipeAA_ok sysAA_eq).good.initial
  have h : ∃ l, sysAA.initialLoc = .ok (some l) := ⟨_, rfl⟩
  obtain ⟨l, h⟩ := h
  rw [h] at ho; cases ho
  have hl := hl l rfl
  refine ⟨l, h, hl, ?_⟩
  have hm : sendLocation sysAA l = .ok (.binary (.leaf "L0" (some ⟨"A", 0⟩)) (.leaf "L0" (some ⟨"A", 1⟩)) 2) := by
    cases h; decide +kernel
  obtain ⟨p, h1, h2⟩ := C33_round_trip exEnvAA_perm exEnvAA'_perm exRecipeAA_ok sysAA_eq sysAA'_eq hl
  rw [hm] at h1; cases h1
  exact ⟨hm, h2⟩

/-- A message with a location of no component: the server panics, it does not answer with another location. -/
example : readLocation sysAA (.binary (.leaf "L9" (some ⟨"A", 0⟩)) (.leaf "L0" (some ⟨"A", 1⟩)) 2) =
    .error (.panic "Could not find location") := by rfl

end Reveaal
