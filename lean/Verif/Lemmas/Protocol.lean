import Verif.Model.Protocol
import Verif.Lemmas.Recipe

/-! # Sending and receiving locations and zones -/

namespace Reveaal
open ZoneLib
variable {F : Type} [ZoneLib F]

/-! ## Locations -/

/-- Locations of accepted systems can be sent, and what arrives names them. -/
theorem location_round {s : Sys F} (hs : s.Accepted) : ∀ {l : LocTree F}, s.IsLoc l →
    ∃ x p, specificLocation l.id s.infos = .ok x ∧ x.toProto = .ok p ∧ p.toSpecific = .ok x ∧
      s.constructLoc x = .ok l := by
  induction hs with
  | @comp order c ins outs id y hc ho h =>
    have hwf := compileWith_wf hc ho h
    have hgood := Sys.good_comp hwf
    rintro _ ⟨q, hq, rfl⟩
    obtain ⟨n, inv, ty, e⟩ := hwf.leafs q hq
    have hid : q.2.id = .simple n := by rw [e]; rfl
    refine ⟨.component ⟨y.name, y.compId⟩ n, .leaf n (some ⟨y.name, y.compId⟩), ?_, rfl, rfl, ?_⟩
    · rw [hid]; rfl
    · simp only [Sys.constructLoc, ne_eq, not_true_eq_false, if_false]
      cases hf : (y.locations.map (·.2)).find? fun l => decide (l.id = .simple n) with
      | none =>
        have := List.find?_eq_none.1 hf q.2 (List.mem_map.2 ⟨q, hq, rfl⟩)
        simp [hid] at this
      | some m =>
        obtain ⟨q', hq', rfl⟩ := List.mem_map.1 (List.mem_of_find?_eq_some hf)
        have this : q'.2.id = .simple n := by simpa using List.find?_some hf
        rw [hgood.unique q'.2 q.2 ⟨q', hq', rfl⟩ ⟨q, hq, rfl⟩ (this.trans hid.symm)]
  | composition hl hr h ihl ihr =>
    obtain ⟨_, rfl⟩ := Sys.newComposition_eq h
    rintro _ ⟨a, b, ha, hb, e⟩
    cases e
    obtain ⟨x, p, h1, h2, h3, h4⟩ := ihl ha
    obtain ⟨y, q, k1, k2, k3, k4⟩ := ihr hb
    refine ⟨.branch x y .composition, .binary p q 1, ?_, ?_, ?_, ?_⟩
    · show specificLocation (.composition a.id b.id) (.pair _ _) = _
      simp only [specificLocation, InfoTree.split, ok_bind, h1, k1]
    · simp only [SpecificLoc.toProto, h2, k2, ok_bind]
    · simp only [ProtoLoc.toSpecific, h3, k3, ok_bind]; rfl
    · simp only [Sys.constructLoc, SpecificLoc.split, ok_bind, h4, k4]; rfl
  | conjunction hl hr h ihl ihr =>
    obtain ⟨_, _, rfl⟩ := Sys.newConjunction_eq h
    rintro _ ⟨a, b, ha, hb, e⟩
    cases e
    obtain ⟨x, p, h1, h2, h3, h4⟩ := ihl ha
    obtain ⟨y, q, k1, k2, k3, k4⟩ := ihr hb
    refine ⟨.branch x y .conjunction, .binary p q 0, ?_, ?_, ?_, ?_⟩
    · show specificLocation (.conjunction a.id b.id) (.pair _ _) = _
      simp only [specificLocation, InfoTree.split, ok_bind, h1, k1]
    · simp only [SpecificLoc.toProto, h2, k2, ok_bind]
    · simp only [ProtoLoc.toSpecific, h3, k3, ok_bind]; rfl
    · simp only [Sys.constructLoc, SpecificLoc.split, ok_bind, h4, k4]; rfl
  | quotient ht hs h0 hn h iht ihs =>
    obtain ⟨_, rfl⟩ := Sys.newQuotient_eq h
    rintro _ (⟨a, b, ha, hb, rfl⟩ | rfl | rfl)
    · obtain ⟨x, p, h1, h2, h3, h4⟩ := iht ha
      obtain ⟨y, q, k1, k2, k3, k4⟩ := ihs hb
      refine ⟨.branch x y .quotient, .binary p q 2, ?_, ?_, ?_, ?_⟩
      · show specificLocation (.quotient a.id b.id) (.pair _ _) = _
        simp only [specificLocation, InfoTree.split, ok_bind, h1, k1]
      · simp only [SpecificLoc.toProto, h2, k2, ok_bind]
      · simp only [ProtoLoc.toSpecific, h3, k3, ok_bind]; rfl
      · simp only [Sys.constructLoc, ok_bind, h4, k4]
    · exact ⟨.special .universal, .special 0, rfl, rfl, rfl, rfl⟩
    · exact ⟨.special .error, .special 1, rfl, rfl, rfl, rfl⟩

theorem send_read_location {s : Sys F} (hs : s.Accepted) {l : LocTree F} (hl : s.IsLoc l) :
    ∃ p, sendLocation s l = .ok p ∧ readLocation s p = .ok l := by
  obtain ⟨x, p, h1, h2, h3, h4⟩ := location_round hs hl
  refine ⟨p, ?_, ?_⟩
  · rw [sendLocation, h1]; exact h2
  · rw [readLocation, h3]
    show orPanic (s.constructLoc x) = _
    rw [h4]; rfl

/-! ## Building a system anew -/

/-- Two builds of one system: the same tree of component instances, the same locations, actions and transitions. -/
structure Sys.Rebuilt (s s' : Sys F) : Prop where
  infos : s.infos = s'.infos
  locs : ∀ l, s.IsLoc l ↔ s'.IsLoc l
  inputs : s.inputs = s'.inputs
  outputs : s.outputs = s'.outputs
  next : s.next = s'.next
  edges : ∀ t, specificEdges t s = specificEdges t s'

theorem Sys.Rebuilt.hasAction {s s' : Sys F} (h : s.Rebuilt s') : s.hasAction = s'.hasAction := by
  funext a; simp only [Sys.hasAction, h.inputs, h.outputs]

theorem Sys.Rebuilt.ifAvailable {s s' : Sys F} (h : s.Rebuilt s') : s.ifAvailable = s'.ifAvailable := by
  funext a r; rw [Sys.ifAvailable, Sys.ifAvailable, h.hasAction]

theorem Sys.Rebuilt.quotientMoves {s s' u u' : Sys F} (h : s.Rebuilt s') (h' : u.Rebuilt u') :
    s.quotientMoves u = s'.quotientMoves u' := by
  funext c n lt ls a tt st
  simp only [Sys.quotientMoves, h.hasAction, h'.hasAction, h.outputs, h'.outputs]

omit [ZoneLib F] in
theorem specificEdgesAll_congr {s s' : Sys F} (h : ∀ t, specificEdges t s = specificEdges t s') :
    ∀ ts, specificEdgesAll ts s = specificEdgesAll ts s' := by
  intro ts
  induction ts with
  | nil => rfl
  | cons t ts ih => rw [specificEdgesAll, specificEdgesAll, h, ih]

omit [ZoneLib F] in
theorem pushEdge_lookup {id : LocId} {x : String × Transition F} :
    ∀ {m m' : List (LocId × List (String × Transition F))}, CompComp.pushEdge id x m = .ok m' →
      ∀ k, m'.lookup k = if k = id then (m.lookup k).map (· ++ [x]) else m.lookup k := by
  intro m
  induction m with
  | nil => intro m' h; cases h
  | cons p m ih =>
    obtain ⟨j, es⟩ := p
    intro m' h k
    unfold CompComp.pushEdge at h
    split at h
    · rename_i hj
      subst hj
      cases h
      simp only [List.lookup_cons]
      by_cases hk : k = j
      · subst hk; simp
      · rw [if_neg hk]; simp [beq_eq_false_iff_ne.2 hk]
    · rename_i hj
      obtain ⟨m1, h1, h⟩ := bind_ok h
      cases h
      simp only [List.lookup_cons]
      by_cases hk : k = j
      · subst hk; simp [hj]
      · simp only [beq_eq_false_iff_ne.2 hk]; exact ih h1 k

theorem buildEdges_lookup {c : Component} : ∀ {es : List Edge} {m n m' n' : List (LocId × List (String × Transition F))},
    (∀ k, m.lookup k = n.lookup k) → CompComp.buildEdges c es m = .ok m' → CompComp.buildEdges c es n = .ok n' →
    ∀ k, m'.lookup k = n'.lookup k := by
  intro es
  induction es with
  | nil => intro m n m' n' h h1 h2; cases h1; cases h2; exact h
  | cons e es ih =>
    intro m n m' n' h h1 h2
    obtain ⟨t, ht, h1⟩ := bind_ok h1
    obtain ⟨m1, hm, h1⟩ := bind_ok h1
    obtain ⟨t', ht', h3⟩ := bind_ok h2
    rw [ht] at ht'; cases ht'
    obtain ⟨n1, hn, h4⟩ := bind_ok h3
    refine ih (fun k => ?_) h1 h4
    rw [pushEdge_lookup hm, pushEdge_lookup hn, h]

theorem lookup_keys {α β : Type} [DecidableEq α] {γ : Type} (b : β) (l : List (α × γ)) (k : α) :
    (l.map fun p => (p.1, b)).lookup k = if k ∈ l.map (·.1) then some b else none := by
  induction l with
  | nil => rfl
  | cons p l ih =>
    simp only [List.map_cons, List.lookup_cons, List.mem_cons]
    by_cases hk : k = p.1
    · simp [hk]
    · simp only [beq_eq_false_iff_ne.2 hk, ih, hk, false_or]

theorem compile_infos {order order' : List (LocId × LocTree F) → List (LocId × LocTree F)} {c : Component}
    {id : Nat} {x x' : CompComp F} (ho : ∀ l, (order l).Perm l) (ho' : ∀ l, (order' l).Perm l)
    (h : CompComp.compile order c id = .ok x) (h' : CompComp.compile order' c id = .ok x') :
    (Sys.comp x).Rebuilt (.comp x') ∧ x.name = c.name ∧ x.compId = id ∧ x.decls = c.decls := by
  unfold CompComp.compile CompComp.compileWith at h h'
  split at h
  · cases h
  rename_i hd
  rw [if_neg hd] at h'
  obtain ⟨locs, h1, h⟩ := bind_ok h
  obtain ⟨es, h2, h⟩ := bind_ok h
  obtain ⟨locs', h1', h'⟩ := bind_ok h'
  obtain ⟨es', h2', h'⟩ := bind_ok h'
  rw [h1] at h1'; cases h1'
  cases h; cases h'
  refine ⟨⟨rfl, fun l => ?_, rfl, rfl, ?_, fun t => by cases t <;> rfl⟩, rfl, rfl, rfl⟩
  rotate_left
  · funext l a
    simp only [Sys.next, CompComp.next]
    rw [buildEdges_lookup (fun k => ?_) h2 h2']
    rw [lookup_keys, lookup_keys]
    have : k ∈ (order locs).map (·.1) ↔ k ∈ (order' locs).map (·.1) :=
      (((ho locs).map _).mem_iff).trans (((ho' locs).map _).mem_iff).symm
    simp only [this]
  have : ∀ p : LocId × LocTree F, p ∈ order locs ↔ p ∈ order' locs :=
    fun p => ((ho locs).mem_iff).trans ((ho' locs).mem_iff).symm
  simp only [Sys.IsLoc, this]

/-- Compiling a recipe twice: only the iteration orders differ. -/
theorem Recipe.compile_rebuilt : ∀ {r : Recipe} {env env' : CompileEnv F} {i j j' : Nat} {s s' : Sys F},
    env.Perm → env'.Perm → r.compile env i = .ok (s, j) → r.compile env' i = .ok (s', j') →
    s.Rebuilt s' ∧ j = j'
  | .composition l r, env, env', i, j, j', s, s', he, he', h, h' => by
    obtain ⟨⟨sl, k⟩, h1, h⟩ := bind_ok h
    obtain ⟨⟨sr, m⟩, h2, h⟩ := bind_ok h
    obtain ⟨x, h3, h⟩ := bind_ok h
    obtain ⟨⟨sl', k'⟩, h1', h'⟩ := bind_ok h'
    obtain ⟨⟨sr', m'⟩, h2', h'⟩ := bind_ok h'
    obtain ⟨x', h3', h'⟩ := bind_ok h'
    cases h; cases h'
    obtain ⟨hl, rfl⟩ := compile_rebuilt (env := env.sub false) (env' := env'.sub false) he he' h1 h1'
    obtain ⟨hr, rfl⟩ := compile_rebuilt (env := env.sub true) (env' := env'.sub true) he he' h2 h2'
    obtain ⟨_, rfl⟩ := Sys.newComposition_eq h3
    obtain ⟨_, rfl⟩ := Sys.newComposition_eq h3'
    exact ⟨⟨by simp only [Sys.infos, hl.infos, hr.infos], fun l => by simp only [Sys.IsLoc, hl.locs, hr.locs],
      by simp only [hl.inputs, hr.inputs, hl.outputs, hr.outputs]; rfl,
      by simp only [hl.inputs, hr.inputs, hl.outputs, hr.outputs]; rfl, by
        funext l a
        simp only [Sys.next, hl.inputs, hr.inputs, hl.outputs, hr.outputs, hl.next, hr.next], fun t => by
        cases t <;> simp only [specificEdges, Sys.compType, Sys.children, ok_bind, hl.edges, hr.edges,
          specificEdgesAll_congr hl.edges, specificEdgesAll_congr hr.edges, reduceCtorEq, not_false_eq_true, if_true,
          ne_eq]⟩, rfl⟩
  | .conjunction l r, env, env', i, j, j', s, s', he, he', h, h' => by
    obtain ⟨⟨sl, k⟩, h1, h⟩ := bind_ok h
    obtain ⟨⟨sr, m⟩, h2, h⟩ := bind_ok h
    obtain ⟨x, h3, h⟩ := bind_ok h
    obtain ⟨⟨sl', k'⟩, h1', h'⟩ := bind_ok h'
    obtain ⟨⟨sr', m'⟩, h2', h'⟩ := bind_ok h'
    obtain ⟨x', h3', h'⟩ := bind_ok h'
    cases h; cases h'
    obtain ⟨hl, rfl⟩ := compile_rebuilt (env := env.sub false) (env' := env'.sub false) he he' h1 h1'
    obtain ⟨hr, rfl⟩ := compile_rebuilt (env := env.sub true) (env' := env'.sub true) he he' h2 h2'
    obtain ⟨_, _, rfl⟩ := Sys.newConjunction_eq (newConjunction_unchecked h3)
    obtain ⟨_, _, rfl⟩ := Sys.newConjunction_eq (newConjunction_unchecked h3')
    exact ⟨⟨by simp only [Sys.infos, hl.infos, hr.infos], fun l => by simp only [Sys.IsLoc, hl.locs, hr.locs],
      by simp only [hl.inputs, hr.inputs, hl.outputs, hr.outputs]; rfl,
      by simp only [hl.inputs, hr.inputs, hl.outputs, hr.outputs]; rfl, by
        funext l a
        simp only [Sys.next, hl.inputs, hr.inputs, hl.outputs, hr.outputs, hl.next, hr.next], fun t => by
        cases t <;> simp only [specificEdges, Sys.compType, Sys.children, ok_bind, hl.edges, hr.edges,
          specificEdgesAll_congr hl.edges, specificEdgesAll_congr hr.edges, reduceCtorEq, not_false_eq_true, if_true,
          ne_eq]⟩, rfl⟩
  | .quotient l r q, env, env', i, j, j', s, s', he, he', h, h' => by
    obtain ⟨⟨sl, k⟩, h1, h⟩ := bind_ok h
    obtain ⟨⟨sr, m⟩, h2, h⟩ := bind_ok h
    obtain ⟨x, h3, h⟩ := bind_ok h
    obtain ⟨⟨sl', k'⟩, h1', h'⟩ := bind_ok h'
    obtain ⟨⟨sr', m'⟩, h2', h'⟩ := bind_ok h'
    obtain ⟨x', h3', h'⟩ := bind_ok h'
    cases h; cases h'
    obtain ⟨hl, rfl⟩ := compile_rebuilt (env := env.sub false) (env' := env'.sub false) he he' h1 h1'
    obtain ⟨hr, rfl⟩ := compile_rebuilt (env := env.sub true) (env' := env'.sub true) he he' h2 h2'
    obtain ⟨_, rfl⟩ := Sys.newQuotient_eq (newQuotient_unchecked h3)
    obtain ⟨_, rfl⟩ := Sys.newQuotient_eq (newQuotient_unchecked h3')
    exact ⟨⟨by simp only [Sys.infos, hl.infos, hr.infos], fun l => by simp only [Sys.IsLoc, hl.locs, hr.locs],
      by simp only [hl.inputs, hr.inputs, hl.outputs, hr.outputs]; rfl,
      by simp only [hl.inputs, hr.inputs, hl.outputs, hr.outputs]; rfl, by
        funext l a
        simp only [Sys.next, hl.ifAvailable, hr.ifAvailable, hl.quotientMoves hr, hl.inputs, hr.inputs, hl.outputs,
          hr.outputs, hl.next, hr.next], fun t => by
        cases t <;> simp only [specificEdges, Sys.compType, Sys.children, ok_bind, hl.edges, hr.edges,
          specificEdgesAll_congr hl.edges, specificEdgesAll_congr hr.edges, reduceCtorEq, not_false_eq_true, if_true,
          ne_eq]⟩, rfl⟩
  | .component c id, env, env', i, j, j', s, s', he, he', h, h' => by
    obtain ⟨x, h1, h⟩ := bind_ok h
    obtain ⟨x', h1', h'⟩ := bind_ok h'
    cases h; cases h'
    exact ⟨(compile_infos (he i) (he' i) h1 h1').1, rfl⟩

/-- The component instances of a compiled recipe: numbered in order, with the declarations of the components. -/
theorem Recipe.compile_instances : ∀ {r : Recipe} {env : CompileEnv F} {i j : Nat} {s : Sys F},
    env.Perm → r.compile env i = .ok (s, j) →
    s.infos.list.map (·.id) = List.range' i s.infos.list.length ∧ j = i + s.infos.list.length ∧
      ∀ c ∈ s.infos.list, ∃ k ∈ r.components, c.name = k.name ∧ c.decls = k.decls := by
  have both : ∀ {l r : Recipe} {i k j : Nat} {sl sr : InfoTree},
      (sl.list.map (·.id) = List.range' i sl.list.length ∧ k = i + sl.list.length ∧
        ∀ c ∈ sl.list, ∃ k ∈ l.components, c.name = k.name ∧ c.decls = k.decls) →
      (sr.list.map (·.id) = List.range' k sr.list.length ∧ j = k + sr.list.length ∧
        ∀ c ∈ sr.list, ∃ k ∈ r.components, c.name = k.name ∧ c.decls = k.decls) →
      (InfoTree.pair sl sr).list.map (·.id) = List.range' i (InfoTree.pair sl sr).list.length ∧
        j = i + (InfoTree.pair sl sr).list.length ∧
        ∀ c ∈ (InfoTree.pair sl sr).list, ∃ k ∈ l.components ++ r.components, c.name = k.name ∧ c.decls = k.decls := by
    rintro l r i k j sl sr ⟨h1, rfl, h2⟩ ⟨h3, rfl, h4⟩
    simp only [InfoTree.list, List.map_append, List.length_append, h1, h3]
    refine ⟨by rw [List.range'_append_1], by omega, fun c hc => ?_⟩
    rcases List.mem_append.1 hc with hc | hc
    · obtain ⟨k, hk, h⟩ := h2 c hc; exact ⟨k, List.mem_append_left _ hk, h⟩
    · obtain ⟨k, hk, h⟩ := h4 c hc; exact ⟨k, List.mem_append_right _ hk, h⟩
  intro r
  induction r with
  | composition l r ihl ihr =>
    intro env i j s he h
    obtain ⟨⟨sl, k⟩, h1, h⟩ := bind_ok h
    obtain ⟨⟨sr, m⟩, h2, h⟩ := bind_ok h
    obtain ⟨x, h3, h⟩ := bind_ok h
    cases h
    obtain ⟨_, rfl⟩ := Sys.newComposition_eq h3
    exact both (ihl (env := env.sub false) he h1) (ihr (env := env.sub true) he h2)
  | conjunction l r ihl ihr =>
    intro env i j s he h
    obtain ⟨⟨sl, k⟩, h1, h⟩ := bind_ok h
    obtain ⟨⟨sr, m⟩, h2, h⟩ := bind_ok h
    obtain ⟨x, h3, h⟩ := bind_ok h
    cases h
    obtain ⟨_, _, rfl⟩ := Sys.newConjunction_eq (newConjunction_unchecked h3)
    exact both (ihl (env := env.sub false) he h1) (ihr (env := env.sub true) he h2)
  | quotient l r q ihl ihr =>
    intro env i j s he h
    obtain ⟨⟨sl, k⟩, h1, h⟩ := bind_ok h
    obtain ⟨⟨sr, m⟩, h2, h⟩ := bind_ok h
    obtain ⟨x, h3, h⟩ := bind_ok h
    cases h
    obtain ⟨_, rfl⟩ := Sys.newQuotient_eq (newQuotient_unchecked h3)
    exact both (ihl (env := env.sub false) he h1) (ihr (env := env.sub true) he h2)
  | component c id =>
    intro env i j s he h
    obtain ⟨x, h1, h⟩ := bind_ok h
    cases h
    obtain ⟨_, h2, h3, h4⟩ := compile_infos (he i) (he i) h1 h1
    simp only [Sys.infos, InfoTree.list, List.map_cons, List.map_nil, List.length_cons, List.length_nil, h3]
    refine ⟨by simp, trivial, fun k hk => ?_⟩
    rw [List.mem_singleton.1 hk]
    exact ⟨c, List.mem_singleton.2 rfl, h2, h4⟩

/-! ## Zones -/

theorem hmCollect_mem {K V : Type} [DecidableEq K] {l : List (K × V)} {p : K × V} (h : p ∈ hmCollect l) : p ∈ l := by
  have : ∀ (l m : List (K × V)), p ∈ l.foldl (fun m p => hmInsert p.1 p.2 m) m → p ∈ m ∨ p ∈ l := by
    intro l
    induction l with
    | nil => intro m h; exact .inl h
    | cons a l ih =>
      intro m h
      rcases ih _ h with h | h
      · rcases mem_hmInsert h with rfl | h
        · exact .inr (by simp)
        · exact .inl h
      · exact .inr (List.mem_cons_of_mem _ h)
  rcases this l [] h with h | h
  · cases h
  · exact h

theorem hmCollect_lookup_none {K V : Type} [DecidableEq K] [BEq K] [LawfulBEq K] {l : List (K × V)} {k : K} :
    (hmCollect l).lookup k = none ↔ k ∉ l.map (·.1) := by
  have : ∀ (l m : List (K × V)), (l.foldl (fun m p => hmInsert p.1 p.2 m) m).lookup k = none ↔
      m.lookup k = none ∧ k ∉ l.map (·.1) := by
    intro l
    induction l with
    | nil => intro m; simp
    | cons a l ih =>
      intro m
      rw [List.foldl_cons, ih, lookup_hmInsert]
      simp only [List.map_cons, List.mem_cons, not_or]
      split
      · rename_i h; simp [h]
      · rename_i h; simp [h]
  have h := this l []
  simpa [hmCollect] using h

/-- With distinct keys every entry is found. -/
theorem hmCollect_lookup {K V : Type} [DecidableEq K] [BEq K] [LawfulBEq K] {l : List (K × V)} {k : K} {v : V}
    (hn : (l.map (·.1)).Nodup) (h : (k, v) ∈ l) : (hmCollect l).lookup k = some v := by
  cases hl : (hmCollect l).lookup k with
  | none => exact absurd (List.mem_map.2 ⟨_, h, rfl⟩) (hmCollect_lookup_none.1 hl)
  | some w =>
    have := hmCollect_mem (lookup_mem hl)
    have := nodup_keys_unique hn this h rfl
    cases this; rfl

/-- What is needed of component instances for their clocks to be named unambiguously. -/
structure InfoTree.Distinct (t : InfoTree) : Prop where
  ids : (t.list.map (·.id)).Nodup
  names : ∀ c ∈ t.list, (c.decls.clocks.map (·.1)).Nodup

theorem lookup_nodup {V : Type} {l : List (String × V)} {k : String} {v : V} (hn : (l.map (·.1)).Nodup)
    (h : (k, v) ∈ l) : l.lookup k = some v := by
  induction l with
  | nil => cases h
  | cons a l ih =>
    obtain ⟨k', v'⟩ := a
    rw [List.map_cons, List.nodup_cons] at hn
    rcases List.mem_cons.1 h with h' | h'
    · cases h'; simp [List.lookup]
    · have hne : k ≠ k' := by
        rintro rfl
        exact hn.1 (List.mem_map.2 ⟨_, h', rfl⟩)
      have : (k == k') = false := by simpa using hne
      rw [List.lookup, this]
      exact ih hn.2 h'

/-- A clock that was sent is read as itself. -/
theorem clock_round {t : InfoTree} (ht : t.Distinct) {ord : List (String × Nat) → List (String × Nat)}
    (ho : ∀ l, (ord l).Perm l) {i : Nat} (hi : i < 2 ^ 32) :
    ∃ p, (mapClock (specificClockMap ord t) i).toProto = .ok p ∧
      readClock (hmCollect (t.list.map fun c => (c.id, c.name, c.decls))) p = .ok i := by
  unfold mapClock
  split
  · rename_i h; exact ⟨.zero, rfl, by rw [h]; rfl⟩
  · split
    · rename_i c hc
      have hm := hmCollect_mem (lookup_mem hc)
      obtain ⟨comp, hcomp, hm⟩ := List.mem_flatMap.1 hm
      obtain ⟨⟨n, k⟩, hp, e⟩ := List.mem_map.1 hm
      cases e
      refine ⟨_, rfl, ?_⟩
      have h1 : (hmCollect (t.list.map fun c => (c.id, c.name, c.decls))).lookup comp.id = some (comp.name, comp.decls) :=
        hmCollect_lookup (by rw [List.map_map]; exact ht.ids) (List.mem_map.2 ⟨comp, hcomp, rfl⟩)
      have h2 : comp.decls.clockIndex n = some k := lookup_nodup (ht.names comp hcomp) ((ho _).mem_iff.1 hp)
      simp only [readClock, h1, h2]
      simp
    · exact ⟨.system i, by rw [ClockVar.toProto, if_pos hi], rfl⟩

theorem constr_round {t : InfoTree} (ht : t.Distinct) {ord : List (String × Nat) → List (String × Nat)}
    (ho : ∀ l, (ord l).Perm l) {k : Constr} (hi : k.i < 2 ^ 32) (hj : k.j < 2 ^ 32) :
    ∃ p, (SpecificConstr.ofConstr (specificClockMap ord t) k).toProto = .ok p ∧
      readConstr (hmCollect (t.list.map fun c => (c.id, c.name, c.decls))) p = .ok k := by
  obtain ⟨i, j, e⟩ := k
  obtain ⟨p, h1, h2⟩ := clock_round ht ho hi
  obtain ⟨q, k1, k2⟩ := clock_round ht ho hj
  cases e with
  | LE c =>
    refine ⟨⟨some p, some q, false, c⟩, ?_, ?_⟩
    · simp only [SpecificConstr.ofConstr, SpecificConstr.toProto] at h1 k1 ⊢
      rw [h1, ok_bind, k1, ok_bind]
    · simp only [readConstr, h2, k2, ok_bind]; rfl
  | LS c =>
    refine ⟨⟨some p, some q, true, c⟩, ?_, ?_⟩
    · simp only [SpecificConstr.ofConstr, SpecificConstr.toProto] at h1 k1 ⊢
      rw [h1, ok_bind, k1, ok_bind]
    · simp only [readConstr, h2, k2, ok_bind]; rfl

/-- Sending and reading a list element by element. -/
theorem mapM_round {α β : Type} {f : α → Res β} {g : β → Res α} : ∀ {l : List α},
    (∀ a ∈ l, ∃ b, f a = .ok b ∧ g b = .ok a) → ∃ r, l.mapM f = .ok r ∧ r.mapM g = .ok l := by
  intro l
  induction l with
  | nil => intro _; exact ⟨[], rfl, rfl⟩
  | cons a l ih =>
    intro h
    obtain ⟨b, h1, h2⟩ := h a (by simp)
    obtain ⟨r, h3, h4⟩ := ih fun a ha => h a (List.mem_cons_of_mem _ ha)
    exact ⟨b :: r, by rw [List.mapM_cons, h1, ok_bind, h3]; rfl, by rw [List.mapM_cons, h2, ok_bind, h4]; rfl⟩

/-- What is read is exactly what the zone library wrote. -/
theorem zone_round {s : Sys F} (ht : s.infos.Distinct) {ord : List (String × Nat) → List (String × Nat)}
    (ho : ∀ l, (ord l).Perm l) (hd : dim F ≤ 2 ^ 32) (z : F) :
    ∃ p, sendZone ord s z = .ok p ∧ readZone s p = .ok (ZoneLib.fromDisjunction (minimal z)) := by
  have hin := minimal_inDim z
  obtain ⟨p, h1, h2⟩ := mapM_round (l := minimal z)
    (f := fun c => c.mapM fun k => (SpecificConstr.ofConstr (specificClockMap ord s.infos) k).toProto)
    (g := fun c => c.mapM (readConstr (hmCollect (s.infos.list.map fun c => (c.id, c.name, c.decls)))))
    (fun c hc => mapM_round fun k hk => constr_round ht ho
      (lt_of_lt_of_le (hin c hc k hk).1 hd) (lt_of_lt_of_le (hin c hc k hk).2 hd))
  refine ⟨p, h1, ?_⟩
  simp only [readZone, h2, ok_bind]

theorem den_round (z : F) : den (ZoneLib.fromDisjunction (minimal z) : F) = den z := by
  rw [ZoneLib.den_fromDisjunction _ (minimal_inDim z), den_minimal]

end Reveaal
