import Verif.Props.C55
import Verif.Props.C56
import Verif.Spec.Report
import Verif.Lemmas.RefineReport

/-!
# C58 The counterexample reported for a failed refinement is one

Both sides of a refinement are compiled with one running number for the component instances
(`src/System/extract_system_rep.rs`): those of the right side follow those of the left.
-/

namespace Reveaal
open ZoneLib
variable {F : Type} [ZoneLib F]

/-! ## Locations -/

omit [ZoneLib F] in
theorem locatedAs_branch {p q : Recipe} {i : Nat} {a b c : LocId} {x y : SpecificLoc} {op : SysType} {r : Recipe}
    (hx : LocatedAs p i a x) (hy : LocatedAs q (i + p.components.length) b y)
    (h : ∀ n k l, r.InstanceAt c n k l ↔ p.InstanceAt a n k l ∨
      ∃ n', n = p.components.length + n' ∧ q.InstanceAt b n' k l) :
    LocatedAs r i c (.branch x y op) := by
  intro e n
  rw [SpecificLoc.leaves, List.mem_append, hx e n, hy e n]
  constructor
  · rintro (⟨j, k, h1, rfl⟩ | ⟨j, k, h1, rfl⟩)
    · exact ⟨j, k, (h j k n).2 (.inl h1), rfl⟩
    · exact ⟨_, k, (h _ k n).2 (.inr ⟨j, rfl, h1⟩), by rw [Nat.add_assoc]⟩
  · rintro ⟨j, k, h1, rfl⟩
    rcases (h j k n).1 h1 with h2 | ⟨j', rfl, h2⟩
    · exact .inl ⟨j, k, h2, rfl⟩
    · exact .inr ⟨j', k, h2, by rw [Nat.add_assoc]⟩

/-- The location of a compiled recipe can be described and sent, and the description says where the component
instances are. -/
theorem location_described : ∀ {r : Recipe} {env : CompileEnv F} {i j : Nat} {s : Sys F}, env.Perm →
    r.compile env i = .ok (s, j) → ∀ {l : LocTree F}, s.IsLoc l →
    ∃ x q, specificLocation l.id s.infos = .ok x ∧ x.toProto = .ok q ∧ LocatedAs r i l.id x := by
  intro r
  induction r with
  | component c id =>
    intro env i j s he h l hl
    obtain ⟨y, h1, h⟩ := bind_ok h
    cases h
    obtain ⟨_, hname, hid, _⟩ := compile_infos (he i) (he i) h1 h1
    obtain ⟨loc, hloc, hs, es, hlk, hf⟩ := compile_next_exact (he i) h1 hl
    obtain ⟨inv, hxe, _⟩ := simple_spec hs
    have hlid : l.id = .simple loc.id := by rw [hxe]; rfl
    refine ⟨.component ⟨y.name, y.compId⟩ loc.id, .leaf loc.id (some ⟨y.name, y.compId⟩), by rw [hlid]; rfl, rfl, ?_⟩
    intro e n
    rw [hlid, SpecificLoc.leaves, List.mem_singleton, hname, hid]
    constructor
    · intro h; cases h; exact ⟨0, c, .component, rfl⟩
    · rintro ⟨_, _, h, rfl⟩; cases h; rfl
  | composition p q ihp ihq =>
    intro env i j s he h l hl
    obtain ⟨⟨sl, k⟩, h1, h⟩ := bind_ok h
    obtain ⟨⟨sr, m⟩, h2, h⟩ := bind_ok h
    obtain ⟨y, h3, h⟩ := bind_ok h
    cases h
    have hk := components_length (env := env.sub false) he h1
    obtain ⟨_, rfl⟩ := Sys.newComposition_eq h3
    obtain ⟨a, b, ha, hb, hx⟩ := hl
    have hid : l.id = .composition a.id b.id := by cases hx; rfl
    obtain ⟨x, qx, g1, g2, g3⟩ := ihp (env := env.sub false) he h1 ha
    obtain ⟨y, qy, g4, g5, g6⟩ := ihq (env := env.sub true) he h2 hb
    rw [hk] at g6
    refine ⟨.branch x y .composition, .binary qx qy 1, ?_, ?_, locatedAs_branch g3 g6 fun n c e => ?_⟩
    · rw [hid]
      show specificLocation (.composition a.id b.id) (.pair _ _) = _
      simp only [specificLocation, InfoTree.split, ok_bind, g1, g4]
    · simp only [SpecificLoc.toProto, g2, g5, ok_bind]
    · rw [hid]
      constructor
      · intro h; cases h with
        | compositionLeft h => exact .inl h
        | compositionRight h => exact .inr ⟨_, rfl, h⟩
      · rintro (h | ⟨n', rfl, h⟩)
        · exact .compositionLeft h
        · exact .compositionRight h
  | conjunction p q ihp ihq =>
    intro env i j s he h l hl
    obtain ⟨⟨sl, k⟩, h1, h⟩ := bind_ok h
    obtain ⟨⟨sr, m⟩, h2, h⟩ := bind_ok h
    obtain ⟨y, h3, h⟩ := bind_ok h
    cases h
    have hk := components_length (env := env.sub false) he h1
    obtain ⟨_, _, rfl⟩ := Sys.newConjunction_eq (newConjunction_unchecked h3)
    obtain ⟨a, b, ha, hb, hx⟩ := hl
    have hid : l.id = .conjunction a.id b.id := by cases hx; rfl
    obtain ⟨x, qx, g1, g2, g3⟩ := ihp (env := env.sub false) he h1 ha
    obtain ⟨y, qy, g4, g5, g6⟩ := ihq (env := env.sub true) he h2 hb
    rw [hk] at g6
    refine ⟨.branch x y .conjunction, .binary qx qy 0, ?_, ?_, locatedAs_branch g3 g6 fun n c e => ?_⟩
    · rw [hid]
      show specificLocation (.conjunction a.id b.id) (.pair _ _) = _
      simp only [specificLocation, InfoTree.split, ok_bind, g1, g4]
    · simp only [SpecificLoc.toProto, g2, g5, ok_bind]
    · rw [hid]
      constructor
      · intro h; cases h with
        | conjunctionLeft h => exact .inl h
        | conjunctionRight h => exact .inr ⟨_, rfl, h⟩
      · rintro (h | ⟨n', rfl, h⟩)
        · exact .conjunctionLeft h
        · exact .conjunctionRight h
  | quotient p q c ihp ihq =>
    intro env i j s he h l hl
    obtain ⟨⟨sl, k⟩, h1, h⟩ := bind_ok h
    obtain ⟨⟨sr, m⟩, h2, h⟩ := bind_ok h
    obtain ⟨y, h3, h⟩ := bind_ok h
    cases h
    have hk := components_length (env := env.sub false) he h1
    obtain ⟨_, rfl⟩ := Sys.newQuotient_eq (newQuotient_unchecked h3)
    rcases hl with ⟨a, b, ha, hb, rfl⟩ | rfl | rfl
    · obtain ⟨x, qx, g1, g2, g3⟩ := ihp (env := env.sub false) he h1 ha
      obtain ⟨y, qy, g4, g5, g6⟩ := ihq (env := env.sub true) he h2 hb
      rw [hk] at g6
      have hid : (LocTree.merge a b).id = .quotient a.id b.id := rfl
      refine ⟨.branch x y .quotient, .binary qx qy 2, ?_, ?_, locatedAs_branch g3 g6 fun n c e => ?_⟩
      · rw [hid]
        show specificLocation (.quotient a.id b.id) (.pair _ _) = _
        simp only [specificLocation, InfoTree.split, ok_bind, g1, g4]
      · simp only [SpecificLoc.toProto, g2, g5, ok_bind]
      · rw [hid]
        constructor
        · intro h; cases h with
          | quotientLeft h => exact .inl h
          | quotientRight h => exact .inr ⟨_, rfl, h⟩
        · rintro (h | ⟨n', rfl, h⟩)
          · exact .quotientLeft h
          · exact .quotientRight h
    · refine ⟨.special .universal, .special 0, rfl, rfl, fun e n => ⟨fun h => (List.not_mem_nil h).elim, ?_⟩⟩
      rintro ⟨_, _, h, _⟩
      have hid : (LocTree.universalLoc : LocTree F).id = .special .universal := rfl
      rw [hid] at h; cases h
    · refine ⟨.special .error, .special 1, rfl, rfl, fun e n => ⟨fun h => (List.not_mem_nil h).elim, ?_⟩⟩
      rintro ⟨_, _, h, _⟩
      have hid : ∀ k, (LocTree.errorLoc k : LocTree F).id = .special .error := fun _ => rfl
      rw [hid] at h; cases h

/-! ## Clocks -/

/-- The component instances of a compiled recipe are its components, in order. -/
theorem compile_components : ∀ {r : Recipe} {env : CompileEnv F} {i j : Nat} {s : Sys F}, env.Perm →
    r.compile env i = .ok (s, j) →
    s.infos.list.map (fun c => (c.name, c.decls)) = r.components.map fun k => (k.name, k.decls) := by
  intro r
  induction r with
  | composition l r ihl ihr =>
    intro env i j s he h
    obtain ⟨⟨sl, k⟩, h1, h⟩ := bind_ok h
    obtain ⟨⟨sr, m⟩, h2, h⟩ := bind_ok h
    obtain ⟨x, h3, h⟩ := bind_ok h
    cases h
    obtain ⟨_, rfl⟩ := Sys.newComposition_eq h3
    simp only [Sys.infos, InfoTree.list, Recipe.components, List.map_append,
      ihl (env := env.sub false) he h1, ihr (env := env.sub true) he h2]
  | conjunction l r ihl ihr =>
    intro env i j s he h
    obtain ⟨⟨sl, k⟩, h1, h⟩ := bind_ok h
    obtain ⟨⟨sr, m⟩, h2, h⟩ := bind_ok h
    obtain ⟨x, h3, h⟩ := bind_ok h
    cases h
    obtain ⟨_, _, rfl⟩ := Sys.newConjunction_eq (newConjunction_unchecked h3)
    simp only [Sys.infos, InfoTree.list, Recipe.components, List.map_append,
      ihl (env := env.sub false) he h1, ihr (env := env.sub true) he h2]
  | quotient l r q ihl ihr =>
    intro env i j s he h
    obtain ⟨⟨sl, k⟩, h1, h⟩ := bind_ok h
    obtain ⟨⟨sr, m⟩, h2, h⟩ := bind_ok h
    obtain ⟨x, h3, h⟩ := bind_ok h
    cases h
    obtain ⟨_, rfl⟩ := Sys.newQuotient_eq (newQuotient_unchecked h3)
    simp only [Sys.infos, InfoTree.list, Recipe.components, List.map_append,
      ihl (env := env.sub false) he h1, ihr (env := env.sub true) he h2]
  | component c id =>
    intro env i j s he h
    obtain ⟨x, h1, h⟩ := bind_ok h
    cases h
    obtain ⟨_, h2, h3, h4⟩ := compile_infos (he i) (he i) h1 h1
    simp only [Sys.infos, InfoTree.list, Recipe.components, List.map_cons, List.map_nil, h2, h4]

/-- A clock is described by a name that means it. -/
theorem clock_described {r : Recipe} {env : CompileEnv F} {i j : Nat} {s : Sys F} (he : env.Perm)
    (hr : r.ClockTables) (hs : r.compile env i = .ok (s, j)) {insts : List Component}
    (hin : ∀ n k, r.components[n]? = some k → insts[i + n]? = some k)
    {ord : List (String × Nat) → List (String × Nat)} (ho : ∀ l, (ord l).Perm l) {n : Nat} {c : SpecificClock}
    (h : (n, c) ∈ specificClockMap ord s.infos) (v : Val) : clockValue insts v (.component c) = some (v n) := by
  obtain ⟨comp, hcomp, hm⟩ := List.mem_flatMap.1 (hmCollect_mem h)
  obtain ⟨⟨name, k⟩, hp, e⟩ := List.mem_map.1 hm
  cases e
  obtain ⟨m, hlt, hget⟩ := List.getElem_of_mem hcomp
  have h1 := (Recipe.compile_instances he hs).1
  have h2 := compile_components he hs
  have hid : comp.id = i + m := by
    have : (s.infos.list.map (·.id))[m]? = some comp.id := by
      rw [List.getElem?_map, List.getElem?_eq_getElem hlt, hget]; rfl
    rw [h1, List.getElem?_range' hlt] at this
    injection this with this
    omega
  have hk : ∃ k, r.components[m]? = some k ∧ k.name = comp.name ∧ k.decls = comp.decls := by
    have : (s.infos.list.map (fun c => (c.name, c.decls)))[m]? = some (comp.name, comp.decls) := by
      rw [List.getElem?_map, List.getElem?_eq_getElem hlt, hget]; rfl
    rw [h2, List.getElem?_map] at this
    cases hc : r.components[m]? with
    | none => rw [hc] at this; cases this
    | some k =>
      rw [hc] at this
      injection this with this
      injection this with e1 e2
      exact ⟨k, rfl, e1, e2⟩
  obtain ⟨k', hk, e1, e2⟩ := hk
  have hd : k'.decls.clockIndex name = some k := by
    rw [e2]
    refine lookup_nodup ?_ ((ho _).mem_iff.1 hp)
    rw [← e2]; exact hr k' (List.mem_of_getElem? hk)
  show (insts[comp.id]?.bind fun k => if k.name = comp.name then (k.decls.clockIndex name).map v else none) = _
  rw [hid, hin m k' hk, Option.bind_some, if_pos e1, hd]
  rfl

theorem hmExtend_mem {K V : Type} [DecidableEq K] {p : K × V} : ∀ {n m : List (K × V)}, p ∈ hmExtend m n →
    p ∈ m ∨ p ∈ n := by
  intro n
  induction n with
  | nil => intro m h; exact .inl h
  | cons a n ih =>
    intro m h
    rcases ih h with h | h
    · rcases mem_hmInsert h with rfl | h
      · exact .inr (by simp)
      · exact .inl h
    · exact .inr (List.mem_cons_of_mem _ h)

/-- Every name in the table means the clock it stands for. -/
def Names (insts : List Component) (v : Val) (m : List (Nat × SpecificClock)) : Prop :=
  ∀ n c, (n, c) ∈ m → clockValue insts v (.component c) = some (v n)

theorem mapClock_value {insts : List Component} {v : Val} {m : List (Nat × SpecificClock)} (h : Names insts v m)
    (h0 : v 0 = 0) (i : Nat) : clockValue insts v (mapClock m i) = some (v i) := by
  unfold mapClock
  split
  · rename_i e; rw [e, h0]; rfl
  · split
    · rename_i c hc; exact h i c (lookup_mem hc)
    · rfl

theorem constr_holds {insts : List Component} {v : Val} {m : List (Nat × SpecificClock)} (h : Names insts v m)
    (h0 : v 0 = 0) (k : Constr) : (SpecificConstr.ofConstr m k).Holds insts v ↔ k.Sat v := by
  obtain ⟨i, j, e⟩ := k
  cases e <;>
  · simp only [SpecificConstr.ofConstr, SpecificConstr.Holds, mapClock_value h h0, Constr.Sat, Ineq.Sat]
    constructor
    · rintro ⟨x, y, hx, hy, hc⟩; cases hx; cases hy; simpa using hc
    · intro hc; exact ⟨_, _, rfl, rfl, by simpa using hc⟩

/-- A described zone is read as the zone. -/
theorem zone_described {insts : List Component} {v : Val} (hv : Valid (dim F) v) {m : List (Nat × SpecificClock)}
    (h : Names insts v m) (z : F) (l : SpecificLoc) :
    v ∈ den z ↔ SpecificState.Holds insts v ⟨l, specificDisjunction m (minimal z)⟩ := by
  rw [← den_minimal z]
  simp only [Set.mem_ofPred_eq, hv, true_and, SpecificState.Holds, specificDisjunction, Disj.Sat, Conj.Sat]
  constructor
  · rintro ⟨c, hc, hs⟩
    refine ⟨_, List.mem_map.2 ⟨c, hc, rfl⟩, fun k hk => ?_⟩
    obtain ⟨k, hk', rfl⟩ := List.mem_map.1 hk
    exact (constr_holds h hv.1 k).2 (hs k hk')
  · rintro ⟨c, hc, hs⟩
    obtain ⟨c, hc', rfl⟩ := List.mem_map.1 hc
    exact ⟨c, hc', fun k hk => (constr_holds h hv.1 k).1 (hs _ (List.mem_map.2 ⟨k, hk, rfl⟩))⟩

theorem clock_toProto {m : List (Nat × SpecificClock)} {i : Nat} (hi : i < 2 ^ 32) :
    ∃ q, (mapClock m i).toProto = .ok q := by
  unfold mapClock
  split
  · exact ⟨_, rfl⟩
  · split
    · exact ⟨_, rfl⟩
    · exact ⟨_, by rw [ClockVar.toProto, if_pos hi]⟩

theorem zone_toProto (hd : dim F ≤ 2 ^ 32) (m : List (Nat × SpecificClock)) (z : F) :
    ∃ q, (specificDisjunction m (minimal z)).mapM (fun c => c.mapM (·.toProto)) = .ok q := by
  have hin := minimal_inDim z
  refine mapM_total fun c hc => ?_
  obtain ⟨c, hc', rfl⟩ := List.mem_map.1 hc
  refine mapM_total fun k hk => ?_
  obtain ⟨k, hk', rfl⟩ := List.mem_map.1 hk
  obtain ⟨h1, h2⟩ := hin c hc' k hk'
  obtain ⟨p, hp⟩ := clock_toProto (m := m) (lt_of_lt_of_le h1 hd)
  obtain ⟨q, hq⟩ := clock_toProto (m := m) (lt_of_lt_of_le h2 hd)
  obtain ⟨i, j, e⟩ := k
  cases e <;> exact ⟨_, by simp only [SpecificConstr.ofConstr, SpecificConstr.toProto] at hp hq ⊢; rw [hp, ok_bind, hq, ok_bind]⟩

/-! ## States -/

/-- The description of a state says where the component instances are, and has exactly the valuations of the state. -/
theorem state_described {r : Recipe} {env : CompileEnv F} {j : Nat} {s : Sys F} (he : env.Perm)
    (hr : r.ClockTables) (hs : r.compile env 0 = .ok (s, j)) (hdim : dim F ≤ 2 ^ 32)
    {ord : List (String × Nat) → List (String × Nat)} (ho : ∀ l, (ord l).Perm l) {st : State F}
    (hl : s.IsLoc st.loc) :
    ∃ x q, SpecificState.ofState ord s st = .ok x ∧ x.toProto = .ok q ∧ LocatedAs r 0 st.loc.id x.locations ∧
      ∀ v, Valid (dim F) v → (v ∈ den st.zone ↔ x.Holds r.components v) := by
  obtain ⟨x, q, h1, h2, h3⟩ := location_described he hs hl
  obtain ⟨qz, h4⟩ := zone_toProto hdim (specificClockMap ord s.infos) st.zone
  refine ⟨⟨x, specificDisjunction (specificClockMap ord s.infos) (minimal st.zone)⟩, ⟨some q, some qz⟩, ?_, ?_, h3, fun v hv => ?_⟩
  · rw [SpecificState.ofState, h1]; rfl
  · simp only [SpecificState.toProto, h2, h4, ok_bind]
  · exact zone_described hv (fun n c hm => clock_described he hr hs (fun n k h => by rw [Nat.zero_add]; exact h) ho hm v) _ _

theorem pair_described {r1 r2 : Recipe} {env1 env2 : CompileEnv F} {k j : Nat} {s1 s2 : Sys F} (he1 : env1.Perm)
    (he2 : env2.Perm) (hr1 : r1.ClockTables) (hr2 : r2.ClockTables) (hs1 : r1.compile env1 0 = .ok (s1, k))
    (hs2 : r2.compile env2 k = .ok (s2, j)) (hdim : dim F ≤ 2 ^ 32)
    {ord1 ord2 : List (String × Nat) → List (String × Nat)} (ho1 : ∀ l, (ord1 l).Perm l)
    (ho2 : ∀ l, (ord2 l).Perm l) {p : StatePair F} (hl : s1.IsLoc p.l1) (hm : s2.IsLoc p.l2) :
    ∃ x q, SpecificState.ofPair ord1 ord2 s1 s2 p = .ok x ∧ x.toProto = .ok q ∧ PairDescribed r1 r2 p x := by
  have hk : k = r1.components.length := by rw [components_length he1 hs1, Nat.zero_add]
  obtain ⟨x, q, h1, h2, h3⟩ := location_described he1 hs1 hl
  obtain ⟨x', q', h1', h2', h3'⟩ := location_described he2 hs2 hm
  obtain ⟨qz, h4⟩ := zone_toProto hdim (specificClockMapPair ord1 ord2 s1 s2) p.zone
  refine ⟨⟨.branch x x' .refinement, specificDisjunction (specificClockMapPair ord1 ord2 s1 s2) (minimal p.zone)⟩, ⟨some (.binary q q' 3), some qz⟩, ?_, ?_,
    ⟨x, x', rfl, h3, by rw [← hk]; exact h3'⟩, fun v hv => ?_⟩
  · rw [SpecificState.ofPair, h1, ok_bind, h1', ok_bind]
  · simp only [SpecificState.toProto, SpecificLoc.toProto, h2, h2', h4, ok_bind]
  · refine zone_described hv (fun n c hmem => ?_) _ _
    rcases hmExtend_mem hmem with hmem | hmem
    · refine clock_described he1 hr1 hs1 (fun n k h => ?_) ho1 hmem v
      rw [Nat.zero_add, List.getElem?_append_left (by
        by_contra hn
        rw [List.getElem?_eq_none (by omega)] at h; cases h)]
      exact h
    · refine clock_described he2 hr2 hs2 (fun n k' h => ?_) ho2 hmem v
      rw [hk, List.getElem?_append_right (by omega), Nat.add_sub_cancel_left]
      exact h

/-! ## The pairs that are explored -/

theorem Together.reach {S T : TS F} {l m : LocTree F} {v w : Val} (h : Together S T l v m w) :
    S.Reach l v ∧ T.Reach m w := by
  induction h with
  | init hl hm h h' => exact ⟨.init hl h, .init hm h'⟩
  | delay _ hl hm ih => exact ⟨.delay ih.1 hl, .delay ih.2 hm⟩
  | act _ hs ih =>
    rcases hs with ⟨_, h1, h2⟩ | ⟨_, _, h1, rfl, rfl⟩ | ⟨_, _, h2, rfl, rfl⟩
    · exact ⟨.act ih.1 h1, .act ih.2 h2⟩
    · exact ⟨.act ih.1 h1, ih.2⟩
    · exact ⟨ih.1, .act ih.2 h2⟩

namespace Refine
variable {s t : Sys F} {ordO ordI : List String}

/-- The joint valuation `u` shows states the two sides get into together. -/
abbrev Joint (s t : Sys F) (l m : LocTree F) (u : Val) : Prop := LinkedBy s t (Together s.ts t.ts) l m u

omit [ZoneLib F] in
theorem joint_of [ZoneLib F] {l m : LocTree F} {u v w : Val} (hu : Valid (dim F) u) (h : Together s.ts t.ts l v m w)
    (hv : ∀ i ∈ s.clocks, u i = v i) (hw : ∀ i ∈ t.clocks, u i = w i) : Joint s t l m u :=
  ⟨hu, v, w, h.reach.1, h.reach.2, hv, hw, h⟩

theorem canDelay_of (hs : s.Regular) {l : LocTree F} (hl : s.IsLoc l) {u v : Val} (hu : Valid (dim F) u)
    (hv : Valid (dim F) v) (huv : ∀ i ∈ s.clocks, u i = v i) {d : ℝ} (hd : 0 ≤ d)
    (hi : delay (dim F) u d ∈ InvSet l) : TS.CanDelay l v d := by
  refine CanDelay.congr (hs.good.invLocal l hl) hu hv huv ⟨hd, fun d' h1 h2 => ?_⟩
  refine hs.past l hl _ (d - d') (delay_valid hu h1) (by linarith) ?_
  rw [delay_add, add_sub_cancel]; exact hi

theorem joint_delay (hs : s.Regular) (ht : t.Regular) {l m : LocTree F} {u : Val} (h : Joint s t l m u) {d : ℝ}
    (hd : 0 ≤ d) (hi : delay (dim F) u d ∈ InvSet l) (hj : delay (dim F) u d ∈ InvSet m) :
    Joint s t l m (delay (dim F) u d) := by
  obtain ⟨hu, v, w, hrl, hrm, huv, huw, hr⟩ := h
  obtain ⟨hl, hv⟩ := hs.good.reach hrl
  obtain ⟨hm, hw⟩ := ht.good.reach hrm
  exact joint_of (delay_valid hu hd) (hr.delay (canDelay_of hs hl hu hv huv hd hi) (canDelay_of ht hm hu hw huw hd hj))
    (fun i hi => Sys.delay_agree (huv i hi)) (fun i hi => Sys.delay_agree (huw i hi))

/-- After the updates of both sides, in either order, the joint valuation agrees with the two sides. -/
theorem agree_after (hdis : s.DisjointClocks t) {t1 t2 : Transition F} {u v w : Val} (g1 : GoodTrans s.clocks t1)
    (g2 : GoodTrans t.clocks t2) (huv : ∀ i ∈ s.clocks, u i = v i) (huw : ∀ i ∈ t.clocks, u i = w i) :
    ((∀ i ∈ s.clocks, runUpdates t2.updates (runUpdates t1.updates u) i = runUpdates t1.updates v i) ∧
      ∀ i ∈ t.clocks, runUpdates t2.updates (runUpdates t1.updates u) i = runUpdates t2.updates w i) ∧
    (∀ i ∈ s.clocks, runUpdates t1.updates (runUpdates t2.updates u) i = runUpdates t1.updates v i) ∧
      ∀ i ∈ t.clocks, runUpdates t1.updates (runUpdates t2.updates u) i = runUpdates t2.updates w i := by
  have hdis' : ∀ i ∈ t.clocks, i ∉ s.clocks := fun i hi hj => hdis i hj hi
  refine ⟨⟨fun i hi => ?_, fun i hi => ?_⟩, fun i hi => ?_, fun i hi => ?_⟩
  · rw [g2.untouched (hdis i hi)]; exact runUpdates_congr_at (huv i hi)
  · refine runUpdates_congr_at ?_
    rw [g1.untouched (hdis' i hi)]; exact huw i hi
  · refine runUpdates_congr_at ?_
    rw [g2.untouched (hdis i hi)]; exact huv i hi
  · rw [g1.untouched (hdis' i hi)]; exact runUpdates_congr_at (huw i hi)

/-- What the transitions `lead` and `follow` that are compared for action `a` are. -/
structure MovesFor (s t : Sys F) (p : StatePair F) (a : String) (lead follow : List (Transition F)) (b : Bool) :
    Prop where
  /-- both can be taken: the two sides move together -/
  step : ∀ t1 ∈ lead, ∀ t2 ∈ follow, ∀ u v w, Together s.ts t.ts p.l1 v p.l2 w → Valid (dim F) u →
    (∀ i ∈ s.clocks, u i = v i) → (∀ i ∈ t.clocks, u i = w i) → CanTake t1 u → CanTake t2 u →
    ∃ v' w', StepTogether s.ts t.ts a p.l1 v p.l2 w (if b then t1.target else t2.target) v'
        (if b then t2.target else t1.target) w' ∧
      (∀ i ∈ s.clocks, runUpdates t2.updates (runUpdates t1.updates u) i = v' i) ∧
      ∀ i ∈ t.clocks, runUpdates t2.updates (runUpdates t1.updates u) i = w' i
  /-- only one can be taken: the action is not answered -/
  alone : ∀ t1 ∈ lead, ∀ u v w, Together s.ts t.ts p.l1 v p.l2 w → Valid (dim F) u →
    (∀ i ∈ s.clocks, u i = v i) → (∀ i ∈ t.clocks, u i = w i) → CanTake t1 u → (∀ t2 ∈ follow, ¬ CanTake t2 u) →
    Unanswered s.ts t.ts p.l1 v p.l2 w a

theorem compared_output (hs : s.Regular) (ht : t.Regular) (hdis : s.DisjointClocks t) {p : StatePair F}
    (hl : s.IsLoc p.l1) (hm : t.IsLoc p.l2) {a : String} {o1 o2 : List (Transition F)}
    (h1 : s.ts.nextOutputs p.l1 a = .ok o1) (h2 : outputs2 s.ts t.ts p a = .ok o2) :
    a ∈ s.ts.outputs ∧ MovesFor s t p a o1 o2 true := by
  unfold TS.nextOutputs at h1
  split at h1
  rotate_left
  · cases h1
  rename_i ha
  have ha : a ∈ s.ts.outputs := by simpa using ha
  refine ⟨ha, ?_⟩
  have has : s.ts.hasAction a = true := by simp [TS.hasAction, ha]
  have hg1 := hs.good.next_ok hl has h1
  have left : ∀ t1 ∈ o1, ∀ u v w, Together s.ts t.ts p.l1 v p.l2 w → Valid (dim F) u →
      (∀ i ∈ s.clocks, u i = v i) → CanTake t1 u → s.ts.Act p.l1 v a t1.target (runUpdates t1.updates v) := by
    intro t1 ht1 u v w h hu huv hc
    exact ⟨has, o1, h1, t1, ht1, (hg1 t1 ht1).2.canTake_congr hu (hs.good.reach h.reach.1).2 huv hc, rfl, rfl⟩
  by_cases hto : a ∈ t.ts.outputs
  · have hta : t.ts.hasAction a = true := by simp [TS.hasAction, hto]
    have h2 : t.ts.next p.l2 a = .ok o2 := by
      unfold outputs2 at h2
      rw [if_neg (by simp [extraOutputs, mem_setDiff, hto])] at h2
      unfold TS.nextOutputs at h2; rwa [if_pos (by simpa using hto)] at h2
    have hg2 := ht.good.next_ok hm hta h2
    constructor
    · intro t1 ht1 t2 ht2 u v w h hu huv huw hc1 hc2
      have hw := (ht.good.reach h.reach.2).2
      exact ⟨_, _, .inl ⟨.inl ⟨ha, hto⟩, left t1 ht1 u v w h hu huv hc1, hta, o2, h2, t2, ht2,
        (hg2 t2 ht2).2.canTake_congr hu hw huw hc2, rfl, rfl⟩, (agree_after hdis (hg1 t1 ht1).2 (hg2 t2 ht2).2 huv huw).1⟩
    · intro t1 ht1 u v w h hu huv huw hc1 hn
      refine .inl ⟨ha, hto, ⟨_, _, left t1 ht1 u v w h hu huv hc1⟩, ?_⟩
      rintro ⟨m', w', _, tr, e, t2, ht2, hc2, _, _⟩
      rw [h2] at e; cases e
      have hw := (ht.good.reach h.reach.2).2
      exact hn t2 ht2 ((hg2 t2 ht2).2.canTake_congr hw hu (fun i hi => (huw i hi).symm) hc2)
  · have h2 : [Transition.withoutId p.l2] = o2 := by
      unfold outputs2 at h2
      rw [if_pos (by simp [extraOutputs, mem_setDiff, hto, ha])] at h2
      cases h2; rfl
    subst h2
    have g2 := goodTrans_withoutId (ht.good.invLocal _ hm)
    constructor
    · intro t1 ht1 t2 ht2 u v w h hu huv huw hc1 _
      rw [List.mem_singleton] at ht2; subst ht2
      exact ⟨_, _, .inr (.inl ⟨ha, hto, left t1 ht1 u v w h hu huv hc1, rfl, rfl⟩),
        (agree_after hdis (hg1 t1 ht1).2 g2 huv huw).1⟩
    · intro t1 ht1 u v w h hu huv huw hc1 hn
      refine (hn _ (List.mem_singleton.2 rfl) ⟨by rw [Transition.withoutId, den_univ]; exact hu, ?_⟩).elim
      exact (linked_inv hs ht (joint_of hu h huv huw)).2

theorem compared_input (hs : s.Regular) (ht : t.Regular) (hdis : s.DisjointClocks t) {p : StatePair F}
    (hl : s.IsLoc p.l1) (hm : t.IsLoc p.l2) {a : String} {i1 i2 : List (Transition F)}
    (h1 : inputs1 s.ts t.ts p a = .ok i1) (h2 : t.ts.nextInputs p.l2 a = .ok i2) :
    a ∈ t.ts.inputs ∧ MovesFor s t p a i2 i1 false := by
  unfold TS.nextInputs at h2
  split at h2
  rotate_left
  · cases h2
  rename_i ha
  have ha : a ∈ t.ts.inputs := by simpa using ha
  refine ⟨ha, ?_⟩
  have hta : t.ts.hasAction a = true := by simp [TS.hasAction, ha]
  have hg2 := ht.good.next_ok hm hta h2
  have right : ∀ t2 ∈ i2, ∀ u v w, Together s.ts t.ts p.l1 v p.l2 w → Valid (dim F) u →
      (∀ i ∈ t.clocks, u i = w i) → CanTake t2 u → t.ts.Act p.l2 w a t2.target (runUpdates t2.updates w) := by
    intro t2 ht2 u v w h hu huw hc
    exact ⟨hta, i2, h2, t2, ht2, (hg2 t2 ht2).2.canTake_congr hu (ht.good.reach h.reach.2).2 huw hc, rfl, rfl⟩
  by_cases hto : a ∈ s.ts.inputs
  · have has : s.ts.hasAction a = true := by simp [TS.hasAction, hto]
    have h1 : s.ts.next p.l1 a = .ok i1 := by
      unfold inputs1 at h1
      rw [if_neg (by simp [extraInputs, mem_setDiff, hto])] at h1
      unfold TS.nextInputs at h1; rwa [if_pos (by simpa using hto)] at h1
    have hg1 := hs.good.next_ok hl has h1
    constructor
    · intro t2 ht2 t1 ht1 u v w h hu huv huw hc2 hc1
      have hv := (hs.good.reach h.reach.1).2
      exact ⟨_, _, .inl ⟨.inr ⟨hto, ha⟩, ⟨has, i1, h1, t1, ht1, (hg1 t1 ht1).2.canTake_congr hu hv huv hc1, rfl, rfl⟩,
        right t2 ht2 u v w h hu huw hc2⟩, (agree_after hdis (hg1 t1 ht1).2 (hg2 t2 ht2).2 huv huw).2⟩
    · intro t2 ht2 u v w h hu huv huw hc2 hn
      refine .inr ⟨ha, hto, ⟨_, _, right t2 ht2 u v w h hu huw hc2⟩, ?_⟩
      rintro ⟨l', v', _, tr, e, t1, ht1, hc1, _, _⟩
      rw [h1] at e; cases e
      have hv := (hs.good.reach h.reach.1).2
      exact hn t1 ht1 ((hg1 t1 ht1).2.canTake_congr hv hu (fun i hi => (huv i hi).symm) hc1)
  · have h1 : [Transition.withoutId p.l1] = i1 := by
      unfold inputs1 at h1
      rw [if_pos (by simp [extraInputs, mem_setDiff, hto, ha])] at h1
      cases h1; rfl
    subst h1
    have g1 := goodTrans_withoutId (hs.good.invLocal _ hl)
    constructor
    · intro t2 ht2 t1 ht1 u v w h hu huv huw hc2 _
      rw [List.mem_singleton] at ht1; subst ht1
      exact ⟨_, _, .inr (.inr ⟨ha, hto, right t2 ht2 u v w h hu huw hc2, rfl, rfl⟩),
        (agree_after hdis g1 (hg2 t2 ht2).2 huv huw).2⟩
    · intro t2 ht2 u v w h hu huv huw hc2 hn
      refine (hn _ (List.mem_singleton.2 rfl) ⟨by rw [Transition.withoutId, den_univ]; exact hu, ?_⟩).elim
      exact (linked_inv hs ht (joint_of hu h huv huw)).1

/-- Every valuation of the pair cannot be told from one in the pair that the two sides get into together. -/
def RealPair (s t : Sys F) (p : StatePair F) : Prop :=
  s.IsLoc p.l1 ∧ t.IsLoc p.l2 ∧ ∃ b1 b2, s.localBounds p.l1 = .ok b1 ∧ t.localBounds p.l2 = .ok b2 ∧
    ∀ u ∈ den p.zone, ∃ u' ∈ den p.zone, (Bounds.add b1 b2).Equiv u u' ∧ Joint s t p.l1 p.l2 u'

/-- What a comparison at a real pair shows. -/
structure Shows (s t : Sys F) (p : StatePair F) (a : String) (lead follow : List (Transition F)) (b : Bool) :
    Prop where
  new : ∀ t1 ∈ lead, ∀ t2 ∈ follow, ∀ q, NewPair s.ts t.ts t1 t2 p b q → RealPair s t q
  unanswered : (∃ u ∈ den p.zone, (∃ x ∈ lead, u ∈ den x.allowed) ∧ ∀ x ∈ follow, u ∉ den x.allowed) →
    ∃ u ∈ den p.zone, ∃ v w, Together s.ts t.ts p.l1 v p.l2 w ∧ (∀ i ∈ s.clocks, u i = v i) ∧
      (∀ i ∈ t.clocks, u i = w i) ∧ Unanswered s.ts t.ts p.l1 v p.l2 w a
  cut : (∃ t1 ∈ lead, ∃ t2 ∈ follow, Cut t1 t2 p b) →
    ∃ u ∈ den p.zone, ∃ v w, Together s.ts t.ts p.l1 v p.l2 w ∧ (∀ i ∈ s.clocks, u i = v i) ∧
      (∀ i ∈ t.clocks, u i = w i) ∧ ∃ l' v' m' w' d, StepTogether s.ts t.ts a p.l1 v p.l2 w l' v' m' w' ∧
        TS.CanDelay l' v' d ∧ ¬ TS.CanDelay m' w' d

theorem compare_real (hs : s.Regular) (ht : t.Regular) {p : StatePair F} {E : Bounds}
    (hp : ∀ u ∈ den p.zone, ∃ u' ∈ den p.zone, E.Equiv u u' ∧ Joint s t p.l1 p.l2 u') {a : String}
    {lead follow : List (Transition F)} {b : Bool} (hcmp : MovesFor s t p a lead follow b)
    (k1 : ∀ x ∈ lead, Known s t (Together s.ts t.ts) p E x) (k2 : ∀ x ∈ follow, Known s t (Together s.ts t.ts) p E x)
    (hloc : ∀ t1 ∈ lead, ∀ t2 ∈ follow, s.IsLoc (if b then t1.target else t2.target) ∧
      t.IsLoc (if b then t2.target else t1.target) ∧
      ∀ bl br, s.localBounds (if b then t1.target else t2.target) = .ok bl →
        t.localBounds (if b then t2.target else t1.target) = .ok br → E.Weaker (Bounds.add bl br)) :
    Shows s t p a lead follow b := by
  -- one step of both sides from a valuation of the pair
  have post : ∀ t1 ∈ lead, ∀ t2 ∈ follow, ∀ w ∈ den (postZone t1 t2 p.zone), ∀ E' : Bounds, E.Weaker E' →
      ∃ u ∈ den p.zone, ∃ v z, Together s.ts t.ts p.l1 v p.l2 z ∧ (∀ i ∈ s.clocks, u i = v i) ∧
        (∀ i ∈ t.clocks, u i = z i) ∧ Valid (dim F) (runUpdates t2.updates (runUpdates t1.updates u)) ∧
        ∃ v' z' d, 0 ≤ d ∧ StepTogether s.ts t.ts a p.l1 v p.l2 z (if b then t1.target else t2.target) v'
          (if b then t2.target else t1.target) z' ∧
        (∀ i ∈ s.clocks, runUpdates t2.updates (runUpdates t1.updates u) i = v' i) ∧
        (∀ i ∈ t.clocks, runUpdates t2.updates (runUpdates t1.updates u) i = z' i) ∧
        E'.Equiv w (delay (dim F) (runUpdates t2.updates (runUpdates t1.updates u)) d) ∧
        delay (dim F) (runUpdates t2.updates (runUpdates t1.updates u)) d ∈ den (postZone t1 t2 p.zone) := by
    intro t1 ht1 t2 ht2 w hw E' hE
    obtain ⟨u, hu, hg1, hg2, d, hd, rfl⟩ := (mem_postZone (k1 t1 ht1).upd (k2 t2 ht2).upd).1 hw
    obtain ⟨u', hu', he, hj⟩ := hp u hu
    have hg1' := (k1 t1 ht1).guard _ _ (den_valid hu) hj.1 he hg1
    have hg2' := (k2 t2 ht2).guard _ _ (den_valid hu) hj.1 he hg2
    have c1 := (k1 t1 ht1).opened u' hj hg1'
    have c2 := (k2 t2 ht2).opened u' hj hg2'
    obtain ⟨hv, v, z, hrl, hrm, huv, huz, htog⟩ := hj
    obtain ⟨v', z', hstep, hv', hz'⟩ := hcmp.step t1 ht1 t2 ht2 u' v z htog hv huv huz c1 c2
    exact ⟨u', hu', v, z, htog, huv, huz, runUpdates_valid (k2 t2 ht2).upd (runUpdates_valid (k1 t1 ht1).upd hv),
      v', z', d, hd, hstep, hv', hz', (hE.equiv he).run.run.delay hd,
      (mem_postZone (k1 t1 ht1).upd (k2 t2 ht2).upd).2 ⟨u', hu', hg1', hg2', d, hd, rfl⟩⟩
  refine ⟨fun t1 ht1 t2 ht2 q hq => ?_, ?_, ?_⟩
  · obtain ⟨hl, hm, hw⟩ := hloc t1 ht1 t2 ht2
    have hpost := post t1 ht1 t2 ht2
    unfold NewPair at hq
    dsimp only at hq
    generalize (if b = true then t1.target else t2.target) = left at *
    generalize (if b = true then t2.target else t1.target) = right at *
    unfold StatePair.extrapolate at hq
    obtain ⟨bl, e1, hq⟩ := bind_ok hq
    obtain ⟨br, e2, hq⟩ := bind_ok hq
    have e1 : s.localBounds left = .ok bl := e1
    have e2 : t.localBounds right = .ok br := e2
    cases hq
    refine ⟨hl, hm, bl, br, e1, e2, fun x hx => ?_⟩
    obtain ⟨y, hy, he⟩ := extrapolate_equiv _ _ _ hx
    obtain ⟨hy', hyr⟩ := mem_applyInvariants.1 hy
    obtain ⟨hyp, hyl⟩ := mem_applyInvariants.1 hy'
    obtain ⟨u, hu, v, z, htog, huv, huz, hval, v', z', d, hd, hstep, hv', hz', heq, hin⟩ := hpost y hyp _ (hw bl br e1 e2)
    have hdv := delay_valid hval hd
    have il := hs.covers.inv hl e1 _ _ (den_valid hyp) hdv ((Bounds.weaker_add_left _ _).equiv heq) hyl
    have ir := ht.covers.inv hm e2 _ _ (den_valid hyp) hdv ((Bounds.weaker_add_right _ _).equiv heq) hyr
    refine ⟨_, extrapolate_sup _ _ (mem_applyInvariants.2 ⟨mem_applyInvariants.2 ⟨hin, il⟩, ir⟩),
      equiv_trans he heq, joint_delay hs ht (joint_of hval (htog.act hstep) hv' hz') hd il ir⟩
  · rintro ⟨u, hu, ⟨x, hx, hal⟩, hno⟩
    obtain ⟨u', hu', he, hj⟩ := hp u hu
    have hv := den_valid hu
    have c1 := (k1 x hx).take u u' hv hj.1 he (C06_allowed_sound x (k1 x hx).upd hal)
    have c2 : ∀ y ∈ follow, ¬ CanTake y u' := fun y hy hc => hno y hy
      ((mem_allowed (k2 y hy).upd ((k2 y hy).agree u' hj)).2 ((k2 y hy).take u' u hj.1 hv he.symm hc))
    obtain ⟨hv', v, z, _, _, huv, huz, htog⟩ := hj
    exact ⟨u', hu', v, z, htog, huv, huz, hcmp.alone x hx u' v z htog hv' huv huz c1 c2⟩
  · rintro ⟨t1, ht1, t2, ht2, hcut⟩
    obtain ⟨hl, hm, hw⟩ := hloc t1 ht1 t2 ht2
    have hpost := post t1 ht1 t2 ht2
    unfold Cut at hcut
    dsimp only at hcut
    generalize (if b = true then t1.target else t2.target) = left at *
    generalize (if b = true then t2.target else t1.target) = right at *
    obtain ⟨y, hy, hn⟩ := hcut
    obtain ⟨hyp, hyl⟩ := mem_applyInvariants.1 hy
    obtain ⟨bl, e1⟩ := hs.good.bounds _ hl
    obtain ⟨br, e2⟩ := ht.good.bounds _ hm
    obtain ⟨u, hu, v, z, htog, huv, huz, hval, v', z', d, hd, hstep, hv', hz', heq, hin⟩ := hpost y hyp _ (hw bl br e1 e2)
    have hdv := delay_valid hval hd
    have il := hs.covers.inv hl e1 _ _ (den_valid hyp) hdv ((Bounds.weaker_add_left _ _).equiv heq) hyl
    have htog' := htog.act hstep
    have hv'v := (hs.good.reach htog'.reach.1).2
    have hz'v := (ht.good.reach htog'.reach.2).2
    refine ⟨u, hu, v, z, htog, huv, huz, left, v', right, z', d, hstep, canDelay_of hs hl hval hv'v hv' hd il, fun hcd => ?_⟩
    apply hn
    rw [den_down]
    refine ⟨den_valid hyp, 0, le_refl _, ?_⟩
    rw [delay_zero]
    refine mem_applyInvariants.2 ⟨hy, ?_⟩
    have h1 : delay (dim F) (runUpdates t2.updates (runUpdates t1.updates u)) d ∈ InvSet right :=
      ht.good.invLocal _ hm _ _ (delay_valid hz'v hd) hdv (fun i hi => (Sys.delay_agree (hz' i hi)).symm) (hcd.2 d hd le_rfl)
    exact ht.covers.inv hm e2 _ _ hdv (den_valid hyp) ((Bounds.weaker_add_right _ _).equiv heq).symm h1

/-- From real pairs the exploration only gets to real pairs, and a failure that is found there is real. -/
theorem real_explored (hs : s.Regular) (ht : t.Regular) (hdis : s.DisjointClocks t) {p : StatePair F}
    (hp : RealPair s t p) :
    (∀ q, ZStep s.ts t.ts ordO ordI p q → RealPair s t q) ∧ ∀ f, FailsAt s.ts t.ts ordO ordI p f →
      ∃ a lead follow b, Shows s t p a lead follow b ∧ Mismatch f a lead follow p b := by
  obtain ⟨hl, hm, b1, b2, hb1, hb2, hz⟩ := hp
  have outs : ∀ a o1 o2, s.ts.nextOutputs p.l1 a = .ok o1 → outputs2 s.ts t.ts p a = .ok o2 →
      Shows s t p a o1 o2 true := by
    intro a o1 o2 h1 h2
    obtain ⟨ha, hc⟩ := compared_output hs ht hdis hl hm h1 h2
    obtain ⟨s1, s2⟩ := sides_output hs ht hl hm hb1 hb2 ha h1 h2
    exact compare_real hs ht hz hc (fun x hx => (s1 x hx).known_left hs) (fun x hx => (s2 x hx).known_right ht)
      (fun t1 ht1 t2 ht2 => ⟨(s1 t1 ht1).loc, (s2 t2 ht2).loc, fun bl br h1 h2 =>
        ((s1 t1 ht1).next bl h1).add ((s2 t2 ht2).next br h2)⟩)
  have ins : ∀ a i1 i2, inputs1 s.ts t.ts p a = .ok i1 → t.ts.nextInputs p.l2 a = .ok i2 →
      Shows s t p a i2 i1 false := by
    intro a i1 i2 h1 h2
    obtain ⟨ha, hc⟩ := compared_input hs ht hdis hl hm h1 h2
    obtain ⟨s1, s2⟩ := sides_input hs ht hl hm hb1 hb2 ha h1 h2
    exact compare_real hs ht hz hc (fun x hx => (s2 x hx).known_right ht) (fun x hx => (s1 x hx).known_left hs)
      (fun t1 ht1 t2 ht2 => ⟨(s1 t2 ht2).loc, (s2 t1 ht1).loc, fun bl br h1 h2 =>
        ((s1 t2 ht2).next bl h1).add ((s2 t1 ht1).next br h2)⟩)
  constructor
  · rintro q (⟨a, _, o1, o2, h1, h2, t1, ht1, t2, ht2, hq⟩ | ⟨a, _, o1, o2, h1, h2, t1, ht1, t2, ht2, hq⟩)
    · exact (outs a o1 o2 h1 h2).new t1 ht1 t2 ht2 q hq
    · exact (ins a o1 o2 h1 h2).new t1 ht1 t2 ht2 q hq
  · rintro f (⟨a, _, o1, o2, h1, h2, hb⟩ | ⟨a, _, o1, o2, h1, h2, hb⟩)
    · exact ⟨a, _, _, _, outs a o1 o2 h1 h2, hb⟩
    · exact ⟨a, _, _, _, ins a o1 o2 h1 h2, hb⟩

/-- A failure with a state was found at a pair that has any property which the first pair has and which is kept by
the exploration. -/
theorem fails_at {s t : Sys F} {G : StatePair F → Prop} {o1 o2 : List Bool → Orders} {fuel : Nat}
    {f : RefFailure F} (h : checkRefinement s t o1 o2 ordO ordI fuel = .ok (some f))
    (hf : ∃ a p, f = .cannotMatch a p ∨ f = .cutsDelays a p)
    (hinit : s.precheck o1 fuel = .ok none → t.precheck o2 fuel = .ok none → ∀ l m p,
      s.ts.initialLoc = .ok (some l) → t.ts.initialLoc = .ok (some m) →
      isEmpty (m.applyInvariants (l.applyInvariants (init : F))) = false →
      StatePair.extrapolate s.ts t.ts ⟨l, m, m.applyInvariants (l.applyInvariants init)⟩ = .ok p → G p)
    (hG : s.precheck o1 fuel = .ok none → t.precheck o2 fuel = .ok none → ∀ p q, G p →
      ZStep s.ts t.ts ordO ordI p q → G q) :
    s.precheck o1 fuel = .ok none ∧ t.precheck o2 fuel = .ok none ∧ AlphabetsFit s.ts t.ts ∧
      ∃ p, G p ∧ FailsAt s.ts t.ts ordO ordI p f := by
  obtain ⟨a0, p0, hf⟩ := hf
  unfold checkRefinement at h
  obtain ⟨x1, hp1, h⟩ := bind_ok h
  cases x1 with
  | some x => cases h; rcases hf with hf | hf <;> cases hf
  | none =>
  obtain ⟨x2, hp2, h⟩ := bind_ok h
  cases x2 with
  | some x => cases h; rcases hf with hf | hf <;> cases hf
  | none =>
  dsimp only at h
  cases ha : checkAlphabets s.ts t.ts with
  | some g =>
    rw [ha] at h
    cases h
    unfold checkAlphabets at ha
    rcases hf with rfl | rfl <;> repeat' first | (split at ha) | (cases ha)
  | none =>
  rw [ha] at h
  refine ⟨hp1, hp2, checkAlphabets_none.1 ha, ?_⟩
  dsimp only at h
  unfold explore at h
  obtain ⟨y1, e1, h⟩ := bind_ok h
  cases y1 with
  | none =>
    obtain ⟨y2, e2, h⟩ := bind_ok h
    cases y2 with
    | none => cases h
    | some m => cases h; rcases hf with hf | hf <;> cases hf
  | some l =>
    obtain ⟨y2, e2, h⟩ := bind_ok h
    cases y2 with
    | none => cases h; rcases hf with hf | hf <;> cases hf
    | some m =>
      dsimp only at h
      split at h
      · cases h; rcases hf with hf | hf <;> cases hf
      rename_i hemp
      obtain ⟨p, hp, h⟩ := bind_ok h
      obtain ⟨⟨r, c⟩, hmain, h⟩ := bind_ok h
      cases h
      refine mainLoop_fails (hG hp1 hp2) fuel ?_ hmain
      intro q hq
      simp only [Waiting.put_queue, Waiting.new, List.mem_singleton] at hq
      subst hq
      exact hinit hp1 hp2 l m _ e1 e2 (by simpa using hemp) hp

end Refine

/-! ## Reports -/

/-- **C58** The report of a failed refinement can always be made and sent, for all systems, quotients included.  It
describes a pair of locations of the two systems: where each component instance is, and exactly the valuations of
the pair.  The action it names is one the two sides are compared on, an output of the left side or an input of the
right side, and called an input exactly if it is one. -/
theorem C58_reported {r1 r2 : Recipe} {env1 env2 : CompileEnv F} {k j : Nat} {s1 s2 : Sys F} (he1 : env1.Perm)
    (he2 : env2.Perm) (hok1 : r1.Ok (dim F)) (hok2 : r2.Ok (dim F)) (hr1 : r1.ClockTables) (hr2 : r2.ClockTables)
    (hs1 : r1.compile env1 0 = .ok (s1, k)) (hs2 : r2.compile env2 k = .ok (s2, j)) (hdim : dim F ≤ 2 ^ 32)
    {ord1 ord2 : List (String × Nat) → List (String × Nat)} (ho1 : ∀ l, (ord1 l).Perm l)
    (ho2 : ∀ l, (ord2 l).Perm l) {o1 o2 : List Bool → Orders} {ordO ordI : List String} {fuel : Nat}
    {f : RefFailure F} (h : checkRefinement s1 s2 o1 o2 ordO ordI fuel = .ok (some f)) {res : Res RefReport}
    (hf : f.report ord1 ord2 s1 s2 = some res) :
    ∃ x q p, res = .ok x ∧ x.toProto = .ok q ∧ q.unmatched = (if x.cuts then 1 else 0) ∧ q.action = x.action ∧
      f = (if x.cuts then .cutsDelays x.action p else .cannotMatch x.action p) ∧
      s1.IsLoc p.l1 ∧ s2.IsLoc p.l2 ∧ PairDescribed r1 r2 p x.state ∧
      ((x.isInput = false ∧ x.action ∈ s1.outputs) ∨ (x.isInput = true ∧ x.action ∈ s2.inputs)) := by
  have hg1 := (Recipe.compile_accepted he1 hok1 hs1).good
  have hg2 := (Recipe.compile_accepted he2 hok2 hs2).good
  have hshape : ∃ a p, f = .cannotMatch a p ∨ f = .cutsDelays a p := by
    cases f <;> first | exact ⟨_, _, .inl rfl⟩ | exact ⟨_, _, .inr rfl⟩ | cases hf
  obtain ⟨_, _, hfit, p, ⟨hl, hm⟩, hfail⟩ := Refine.fails_at (G := fun p => s1.IsLoc p.l1 ∧ s2.IsLoc p.l2) h hshape
    (by
      intro _ _ l m p e1 e2 _ hp
      unfold StatePair.extrapolate at hp
      obtain ⟨b1, hb1, hp⟩ := bind_ok hp
      obtain ⟨b2, hb2, hp⟩ := bind_ok hp
      cases hp
      obtain ⟨y1, g1, g2⟩ := hg1.initial
      obtain ⟨y2, g3, g4⟩ := hg2.initial
      have e1 : s1.initialLoc = .ok (some l) := e1
      have e2 : s2.initialLoc = .ok (some m) := e2
      rw [g1] at e1; cases e1
      rw [g3] at e2; cases e2
      exact ⟨g2 _ rfl, g4 _ rfl⟩)
    (by
      rintro _ _ p q ⟨hl, hm⟩ hq
      have loc1 : ∀ {a ts}, s1.ts.hasAction a = true → s1.ts.next p.l1 a = .ok ts → ∀ t ∈ ts, s1.IsLoc t.target :=
        fun ha hn t ht => (hg1.next_ok hl ha hn t ht).1
      have loc2 : ∀ {a ts}, s2.ts.hasAction a = true → s2.ts.next p.l2 a = .ok ts → ∀ t ∈ ts, s2.IsLoc t.target :=
        fun ha hn t ht => (hg2.next_ok hm ha hn t ht).1
      have new : ∀ {t1 t2 b}, Refine.NewPair s1.ts s2.ts t1 t2 p b q → q.l1 = (if b then t1.target else t2.target) ∧
          q.l2 = (if b then t2.target else t1.target) := by
        intro t1 t2 b hn
        unfold Refine.NewPair StatePair.extrapolate at hn
        obtain ⟨b1, _, hn⟩ := bind_ok hn
        obtain ⟨b2, _, hn⟩ := bind_ok hn
        cases hn; exact ⟨rfl, rfl⟩
      rcases hq with ⟨a, _, u1, u2, h1, h2, t1, ht1, t2, ht2, hq⟩ | ⟨a, _, u1, u2, h1, h2, t2, ht2, t1, ht1, hq⟩
      · obtain ⟨n1, n2⟩ := new hq
        rw [n1, n2]
        unfold TS.nextOutputs at h1
        unfold Refine.outputs2 TS.nextOutputs at h2
        split at h1
        rotate_left
        · cases h1
        rename_i ha
        refine ⟨loc1 (by simp [TS.hasAction]; right; simpa using ha) h1 _ ht1, ?_⟩
        split at h2
        · cases h2; rw [List.mem_singleton] at ht2; rw [ht2]; exact hm
        · split at h2
          · rename_i hb
            exact loc2 (by simp [TS.hasAction]; right; simpa using hb) h2 _ ht2
          · cases h2
      · obtain ⟨n1, n2⟩ := new hq
        rw [n1, n2]
        unfold TS.nextInputs at h2
        unfold Refine.inputs1 TS.nextInputs at h1
        split at h2
        rotate_left
        · cases h2
        rename_i ha
        refine ⟨?_, loc2 (by simp [TS.hasAction]; left; simpa using ha) h2 _ ht2⟩
        split at h1
        · cases h1; rw [List.mem_singleton] at ht1; rw [ht1]; exact hl
        · split at h1
          · rename_i hb
            exact loc1 (by simp [TS.hasAction]; left; simpa using hb) h1 _ ht1
          · cases h1)
  obtain ⟨y, qy, hy, hqy, hdesc⟩ := pair_described he1 he2 hr1 hr2 hs1 hs2 hdim ho1 ho2 hl hm
  have input : ∀ a, (a ∈ s1.outputs ∨ a ∈ s2.inputs) → ((s1.inputs.contains a || s2.inputs.contains a) = false ∧ a ∈ s1.outputs) ∨
      ((s1.inputs.contains a || s2.inputs.contains a) = true ∧ a ∈ s2.inputs) := by
    rintro a (ha | ha)
    · have h1 : a ∉ s2.inputs := hfit.outIn a ha
      have h2 : a ∉ s1.inputs := fun h => h1 (hfit.inputs a h)
      exact .inl ⟨by simp [h1, h2], ha⟩
    · exact .inr ⟨by simp [ha], ha⟩
  have key : ∃ a, (a ∈ s1.outputs ∨ a ∈ s2.inputs) ∧ (f = .cannotMatch a p ∨ f = .cutsDelays a p) := by
    rcases hfail with ⟨a, _, u1, u2, h1, h2, hmm⟩ | ⟨a, _, u1, u2, h1, h2, hmm⟩
    · refine ⟨a, .inl ?_, hmm.imp And.left And.left⟩
      unfold TS.nextOutputs at h1
      split at h1
      · rename_i ha; exact List.contains_iff_mem.1 ha
      · cases h1
    · refine ⟨a, .inr ?_, hmm.imp And.left And.left⟩
      unfold TS.nextInputs at h2
      split at h2
      · rename_i ha; exact List.contains_iff_mem.1 ha
      · cases h2
  obtain ⟨a, ha, hfa⟩ := key
  rcases hfa with rfl | rfl
  · simp only [RefFailure.report, hy, ok_bind, Option.some.injEq] at hf
    exact ⟨⟨false, a, _, y⟩, ⟨0, a, some qy⟩, p, hf.symm, by simp [RefReport.toProto, hqy, ok_bind], rfl, rfl, rfl, hl, hm,
      hdesc, input a ha⟩
  · simp only [RefFailure.report, hy, ok_bind, Option.some.injEq] at hf
    exact ⟨⟨true, a, _, y⟩, ⟨1, a, some qy⟩, p, hf.symm, by simp [RefReport.toProto, hqy, ok_bind], rfl, rfl, rfl, hl, hm,
      hdesc, input a ha⟩

/-- **C58** What the report says is true: some of the states it describes are states the two sides get into together,
and there one side can perform the action and the other cannot answer it; or they can move together with the action
to states where the left side can let time pass and the right side cannot.

Missing from the full property: see `Sys.Ordinary` for the systems covered. -/
theorem C58_real_partial {r1 r2 : Recipe} {env1 env2 : CompileEnv F} {k j : Nat} {s1 s2 : Sys F} (he1 : env1.Perm)
    (he2 : env2.Perm) (hok1 : r1.Ok (dim F)) (hok2 : r2.Ok (dim F)) (hr1 : r1.ClockTables) (hr2 : r2.ClockTables)
    (hs1 : r1.compile env1 0 = .ok (s1, k)) (hs2 : r2.compile env2 k = .ok (s2, j)) (hdim : dim F ≤ 2 ^ 32)
    {ord1 ord2 : List (String × Nat) → List (String × Nat)} (ho1 : ∀ l, (ord1 l).Perm l)
    (ho2 : ∀ l, (ord2 l).Perm l) (hn1 : s1.Ordinary) (hn2 : s2.Ordinary) (hdis : s1.DisjointClocks s2)
    {o1 o2 : List Bool → Orders} (ha1 : s1.ActOrders o1) (ha2 : s2.ActOrders o2) {ordO ordI : List String} {fuel : Nat}
    {f : RefFailure F} (h : checkRefinement s1 s2 o1 o2 ordO ordI fuel = .ok (some f)) {res : Res RefReport}
    (hf : f.report ord1 ord2 s1 s2 = some res) :
    ∃ x p, res = .ok x ∧ PairDescribed r1 r2 p x.state ∧ ∃ u v w, Valid (dim F) u ∧
      x.state.Holds (r1.components ++ r2.components) u ∧ Together s1.ts s2.ts p.l1 v p.l2 w ∧
      (∀ i ∈ s1.clocks, u i = v i) ∧ (∀ i ∈ s2.clocks, u i = w i) ∧
      (x.cuts = false → Unanswered s1.ts s2.ts p.l1 v p.l2 w x.action) ∧
      (x.cuts = true → ∃ l' v' m' w' d, StepTogether s1.ts s2.ts x.action p.l1 v p.l2 w l' v' m' w' ∧
        TS.CanDelay l' v' d ∧ ¬ TS.CanDelay m' w' d) := by
  obtain ⟨x, q, p, hx, _, _, _, hfx, hl, hm, hdesc, _⟩ := C58_reported he1 he2 hok1 hok2 hr1 hr2 hs1 hs2 hdim ho1 ho2 h hf
  have hshape : ∃ a p, f = .cannotMatch a p ∨ f = .cutsDelays a p := by
    cases hc : x.cuts with
    | false => rw [hc] at hfx; exact ⟨_, _, .inl hfx⟩
    | true => rw [hc] at hfx; exact ⟨_, _, .inr hfx⟩
  obtain ⟨hp1, hp2, _, p', hreal, hfail⟩ := Refine.fails_at (G := Refine.RealPair s1 s2) h hshape
    (by
      intro hp1 hp2 l m p e1 e2 hne hp
      have hs := hn1.regular ha1 hp1
      have ht := hn2.regular ha2 hp2
      unfold StatePair.extrapolate at hp
      obtain ⟨b1, hb1, hp⟩ := bind_ok hp
      obtain ⟨b2, hb2, hp⟩ := bind_ok hp
      cases hp
      obtain ⟨y1, g1, g2⟩ := hs.good.initial
      obtain ⟨y2, g3, g4⟩ := ht.good.initial
      have e1' : s1.initialLoc = .ok (some l) := e1
      have e2' : s2.initialLoc = .ok (some m) := e2
      rw [g1] at e1'; cases e1'
      rw [g3] at e2'; cases e2'
      have hl := g2 _ rfl
      have hm := g4 _ rfl
      refine ⟨hl, hm, b1, b2, hb1, hb2, fun u hu => ?_⟩
      obtain ⟨w, hw, he⟩ := extrapolate_equiv _ _ _ hu
      refine ⟨w, extrapolate_sup _ _ hw, he, ?_⟩
      obtain ⟨hw, hwm⟩ := mem_applyInvariants.1 hw
      obtain ⟨hw, hwl⟩ := mem_applyInvariants.1 hw
      obtain ⟨d, hd, rfl⟩ := init_is_delay hw
      have z1 := hs.past l hl _ d Sys.zeroVal_valid hd hwl
      have z2 := ht.past m hm _ d Sys.zeroVal_valid hd hwm
      exact Refine.joint_delay hs ht (Refine.joint_of Sys.zeroVal_valid (.init e1 e2 z1 z2) (fun _ _ => rfl)
        (fun _ _ => rfl)) hd hwl hwm)
    (fun hp1 hp2 p q hp hq =>
      (Refine.real_explored (hn1.regular ha1 hp1) (hn2.regular ha2 hp2) hdis hp).1 q hq)
  obtain ⟨a, lead, follow, b, hshow, hmm⟩ :=
    (Refine.real_explored (hn1.regular ha1 hp1) (hn2.regular ha2 hp2) hdis hreal).2 f hfail
  refine ⟨x, p, hx, hdesc, ?_⟩
  rcases hmm with ⟨rfl, hu⟩ | ⟨rfl, hu⟩
  · cases hc : x.cuts with
    | true => rw [hc] at hfx; cases hfx
    | false =>
      rw [hc] at hfx
      injection hfx with e1 e2
      subst e1 e2
      obtain ⟨u, hu, v, w, htog, huv, huw, hun⟩ := hshow.unanswered hu
      exact ⟨u, v, w, den_valid hu, (hdesc.zone u (den_valid hu)).1 hu, htog, huv, huw, fun _ => hun, fun h => by cases h⟩
  · cases hc : x.cuts with
    | false => rw [hc] at hfx; cases hfx
    | true =>
      rw [hc] at hfx
      injection hfx with e1 e2
      subst e1 e2
      obtain ⟨u, hu, v, w, htog, huv, huw, hun⟩ := hshow.cut hu
      exact ⟨u, v, w, den_valid hu, (hdesc.zone u (den_valid hu)).1 hu, htog, huv, huw, fun h => (by cases h), fun _ => hun⟩

/-! ## An example -/

/-- `C` as the second component instance. -/
def sysC1 : Sys Fed4 := .comp (getOk (CompComp.compile id exC 1) (by decide +kernel))

theorem sysC1_accepted : sysC1.Accepted := .comp exC_ok (fun _ => .refl _) (getOk_eq _)

theorem sysC1_ordinary : sysC1.Ordinary :=
  .comp exC_ok (Component.plain_of_plainB (by decide)) (fun _ => .refl _) (getOk_eq _) (by decide +kernel)
    (CompComp.past_of_pastB (by decide +kernel)) (CompComp.open_of_openB sysC1_accepted.good (by decide +kernel))

theorem exOneRecipe {c : Component} (h : c.okB (dim Fed4) = true) (ht : (c.decls.clocks.map (·.1)).Nodup) : Recipe.Ok (dim Fed4) (.component c none) ∧
    (Recipe.component c none).ClockTables := by
  refine ⟨⟨fun c' hc => ?_, fun q hq => ?_⟩, fun c' hc => ?_⟩
  · simp only [Recipe.components, List.mem_singleton] at hc
    rw [hc]; exact Component.ok_of_okB h
  · cases hq
  · simp only [Recipe.components, List.mem_singleton] at hc
    rw [hc]; exact ht

/-- Which report was made. -/
def reportOf : Res (Option (RefFailure Fed4)) → Option (Bool × String × Bool × SpecificLoc)
  | .ok (some f) =>
    match f.report id id sysA sysC1 with
    | some (.ok x) => some (x.cuts, x.action, x.isInput, x.state.locations)
    | _ => none
  | _ => none

/-- Non-vacuity: once both took the input `go`, `A` may wait five time units and `C` only four.  The report that `C`
cuts the delays of `A` is made, and what it says is true. -/
example : ∃ (x : RefReport) (p : StatePair Fed4), PairDescribed (.component exA none) (.component exC none) p x.state ∧ x.cuts = true ∧ x.action = "go" ∧
    ∃ (u v w : Val), x.state.Holds [exA, exC] u ∧ Together sysA.ts sysC1.ts p.l1 v p.l2 w ∧ (∀ i ∈ sysA.clocks, u i = v i) ∧
      ∃ l' v' m' w' d, StepTogether sysA.ts sysC1.ts "go" p.l1 v p.l2 w l' v' m' w' ∧ TS.CanDelay l' v' d ∧
        ¬ TS.CanDelay m' w' d := by
  have hr : (reportOf (checkRefinement sysA sysC1 exOrders exOrders ["out"] ["go"] 20)).map
      (fun r => (r.1, r.2.1, r.2.2.1)) = some (true, "go", true) := by decide +kernel
  unfold reportOf at hr
  split at hr
  rotate_left
  · cases hr
  rename_i f hf
  split at hr
  rotate_left
  · cases hr
  rename_i x hx
  simp only [Option.map_some, Option.some.injEq, Prod.mk.injEq] at hr
  obtain ⟨hc, ha, _⟩ := hr
  obtain ⟨hoA, htA⟩ := exOneRecipe (c := exA) (by decide) (by decide)
  obtain ⟨hoC, htC⟩ := exOneRecipe (c := exC) (by decide) (by decide)
  obtain ⟨y, p, hy, hp, u, v, w, _, hu, htog, huv, _, _, hcut⟩ := C58_real_partial (r1 := .component exA none)
    (r2 := .component exC none) (env1 := exEnvAA) (env2 := exEnvAA) (k := 1) (j := 2) exEnvAA_perm exEnvAA_perm hoA hoC
    htA htC rfl rfl (by decide) (fun _ => .refl _) (fun _ => .refl _) sysA_ordinary sysC1_ordinary
    (by unfold Sys.DisjointClocks; decide +kernel)
    (fun _ => ⟨by simp [exOrders], fun a => by
      have h1 : sysA.ts.inputs = ["go"] := by decide +kernel
      have h2 : sysA.ts.outputs = ["out"] := by decide +kernel
      change _ ↔ a ∈ sysA.ts.inputs ∨ a ∈ sysA.ts.outputs
      rw [h1, h2]; simp [exOrders]⟩)
    (fun _ => ⟨by simp [exOrders], fun a => by
      have h1 : sysC1.ts.inputs = ["go"] := by decide +kernel
      have h2 : sysC1.ts.outputs = ["out"] := by decide +kernel
      change _ ↔ a ∈ sysC1.ts.inputs ∨ a ∈ sysC1.ts.outputs
      rw [h1, h2]; simp [exOrders]⟩) hf hx
  cases hy
  exact ⟨x, p, hp, hc, ha, u, v, w, hu, htog, huv, ha ▸ hcut hc⟩

end Reveaal
