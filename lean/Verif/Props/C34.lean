import Verif.Props.C33

/-!
# C34 Zones survive the protocol round trip

As for C33 the receiver is another build of the same recipe.
-/

namespace Reveaal
open ZoneLib
variable {F : Type} [ZoneLib F]

/-- Every component has a table of clocks by name: no name occurs twice. -/
def Recipe.ClockTables (r : Recipe) : Prop := ∀ c ∈ r.components, (c.decls.clocks.map (·.1)).Nodup

theorem compile_distinct {r : Recipe} {env : CompileEnv F} {i j : Nat} {s : Sys F} (he : env.Perm)
    (hr : r.ClockTables) (hs : r.compile env i = .ok (s, j)) : s.infos.Distinct := by
  obtain ⟨h1, _, h2⟩ := Recipe.compile_instances he hs
  refine ⟨by rw [h1]; exact List.nodup_range', fun c hc => ?_⟩
  obtain ⟨k, hk, _, e⟩ := h2 c hc
  rw [e]; exact hr k hk

/-- **C34** Every zone of a system can be sent, in whatever order the tables of clocks are visited, and a server that
builds the same system and reads the message has a zone with the same valuations.  The number of clocks fits the
32 bits of a message. -/
theorem C34_round_trip {r : Recipe} {env env' : CompileEnv F} {j j' : Nat} {s s' : Sys F} (he : env.Perm)
    (he' : env'.Perm) (hr : r.ClockTables) (hs : r.compile env 0 = .ok (s, j)) (hs' : r.compile env' 0 = .ok (s', j'))
    (hdim : dim F ≤ 2 ^ 32) {ord : List (String × Nat) → List (String × Nat)} (ho : ∀ l, (ord l).Perm l) (z : F) :
    ∃ p z', sendZone ord s z = .ok p ∧ readZone s' p = .ok z' ∧ den z' = den z := by
  obtain ⟨hb, _⟩ := Recipe.compile_rebuilt he he' hs hs'
  obtain ⟨p, h1, h2⟩ := zone_round (compile_distinct he hr hs) ho hdim z
  refine ⟨p, _, h1, ?_, den_round z⟩
  rw [readZone, ← hb.infos]; exact h2

/-- **C34** A state survives too, if its zone is within the invariant, as the zones of all states the tool computes
are: the same location and the same valuations. -/
theorem C34_state {r : Recipe} {env env' : CompileEnv F} {j j' : Nat} {s s' : Sys F} (he : env.Perm)
    (he' : env'.Perm) (hok : r.Ok (dim F)) (hr : r.ClockTables) (hs : r.compile env 0 = .ok (s, j))
    (hs' : r.compile env' 0 = .ok (s', j')) (hdim : dim F ≤ 2 ^ 32)
    {ord : List (String × Nat) → List (String × Nat)} (ho : ∀ l, (ord l).Perm l) {st : State F}
    (hl : s.IsLoc st.loc) (hz : ∀ v ∈ den st.zone, v ∈ InvSet st.loc) :
    ∃ p st', sendState ord s st = .ok p ∧ readState s' p = .ok st' ∧ st'.loc = st.loc ∧
      den st'.zone = den st.zone := by
  obtain ⟨p, h1, h2⟩ := C33_round_trip he he' hok hs hs' hl
  obtain ⟨q, z, k1, k2, k3⟩ := C34_round_trip he he' hr hs hs' hdim ho st.zone
  refine ⟨⟨some p, some q⟩, ⟨st.loc, st.loc.applyInvariants z⟩, ?_, ?_, rfl, ?_⟩
  · simp only [sendState, h1, k1, ok_bind]
  · simp only [readState, h2, k2, ok_bind]
  · ext v
    rw [mem_applyInvariants, k3]
    exact ⟨fun h => h.1, fun h => ⟨h, hz v h⟩⟩

/-! ## Examples -/

theorem exRecipeAA_tables : exRecipeAA.ClockTables := by
  intro c hc
  simp only [exRecipeAA, Recipe.components, List.cons_append, List.nil_append, List.mem_cons, List.not_mem_nil,
    or_false] at hc
  rcases hc with rfl | rfl <;> decide

/-- `x₁ - x₃ < 4`, `x₁ ≥ 2` and the quotient clock at most 7. -/
def exZoneAA : Fed4 := constrain (constrain (constrain univ 1 3 (.LS 4)) 0 1 (.LE (-2))) 2 0 (.LE 7)

/-- Non-vacuity: the hypotheses hold for `A \\ A`; the message of a zone over both instances and the quotient clock
names them. -/
example : exEnvAA.Perm ∧ exEnvAA'.Perm ∧ exRecipeAA.ClockTables ∧ dim Fed4 ≤ 2 ^ 32 ∧
    isEmpty exZoneAA = false ∧
    ∃ c, sendZone id sysAA exZoneAA = .ok [c] ∧
      (⟨some (.component (some ⟨"A", 0⟩) "x"), some (.component (some ⟨"A", 1⟩) "x"), true, 4⟩ : ProtoConstr) ∈ c ∧
      (⟨some (.system 2), some .zero, false, 7⟩ : ProtoConstr) ∈ c := by
  refine ⟨exEnvAA_perm, exEnvAA'_perm, exRecipeAA_tables, by decide, by decide +kernel, ?_⟩
  have h : (match sendZone id sysAA exZoneAA with | .ok [c] => some c | _ => none).any (fun c =>
    decide ((⟨some (.component (some ⟨"A", 0⟩) "x"), some (.component (some ⟨"A", 1⟩) "x"), true, 4⟩ : ProtoConstr) ∈ c) &&
      decide ((⟨some (.system 2), some .zero, false, 7⟩ : ProtoConstr) ∈ c)) = true := by decide +kernel
  revert h
  generalize sendZone id sysAA exZoneAA = r
  intro h
  match r, h with
  | .ok [c], h =>
    simp only [Option.any_some, Bool.and_eq_true, decide_eq_true_eq] at h
    exact ⟨c, rfl, h⟩

end Reveaal
