import Verif.Lemmas.System

/-! # Compiled components -/

namespace Reveaal
open ZoneLib Arith
variable {F : Type} [ZoneLib F]

theorem orPanic_ok {α : Type} {r : Res α} {a : α} (h : orPanic r = .ok a) : r = .ok a := by
  unfold orPanic at h; split at h <;> simp_all

theorem bind_ok {α β : Type} {r : Res α} {f : α → Res β} {b : β} (h : (r >>= f) = .ok b) :
    ∃ a, r = .ok a ∧ f a = .ok b := by
  cases r with
  | error e => cases h
  | ok a => exact ⟨a, rfl, h⟩

theorem simple_spec {d : Decls} {l : Location} {t : LocTree F} (h : LocTree.simple d l = .ok t) :
    ∃ inv, t = .leaf (.simple l.id) inv l.ty ∧ (l.invariant = none → inv = none) ∧
      ∀ e, l.invariant = some e → ∃ z, applyConstraints d e univ = .ok z ∧ inv = some z := by
  unfold LocTree.simple at h
  obtain ⟨inv, h1, h2⟩ := bind_ok h
  cases h2
  unfold Location.compileInv at h1
  cases hi : l.invariant with
  | none =>
    simp only [hi, Except.ok.injEq] at h1
    exact ⟨inv, rfl, fun _ => h1.symm, by rintro _ ⟨⟩⟩
  | some e =>
    simp only [hi] at h1
    obtain ⟨z, h3, h4⟩ := bind_ok h1
    cases h4
    refine ⟨_, rfl, by rintro ⟨⟩, ?_⟩
    rintro _ ⟨⟩
    exact ⟨z, orPanic_ok h3, rfl⟩

theorem simple_inv_local {d : Decls} (hd : d.InDim (dim F)) {l : Location} {t : LocTree F}
    (hl : ∀ g, l.invariant = some g → g.ClocksIn fun i => i ∈ d.clocks.map (·.2))
    (h : LocTree.simple d l = .ok t) : Local (dim F) (d.clocks.map (·.2)) (InvSet t) := by
  obtain ⟨inv, rfl, hn, hs⟩ := simple_spec h
  cases hi : l.invariant with
  | none => rw [hn hi]; intro v w _ _ _ _ i hi; simp [LocTree.inv] at hi
  | some e =>
    obtain ⟨z, hz, rfl⟩ := hs e hi
    have := apply_univ_local hd (hl e hi) hz
    intro v w hv hw ha hm i hi
    simp only [LocTree.inv, Option.some.injEq] at hi
    subst hi
    exact this v w hv hw ha (hm z rfl)

/-- What a compiled component looks like. -/
structure CompComp.WF (c : CompComp F) : Prop where
  disj : ∀ a ∈ c.inputs, a ∉ c.outputs
  declsOk : c.decls.InDim (dim F)
  keys : (c.locations.map (·.1)).Nodup
  ids : ∀ p ∈ c.locations, p.2.id = p.1
  leafs : ∀ p ∈ c.locations, ∃ n inv ty, p.2 = .leaf (.simple n) inv ty
  invLocal : ∀ p ∈ c.locations, Local (dim F) (c.decls.clocks.map (·.2)) (InvSet p.2)
  edgeKeys : ∀ p ∈ c.locations, ∃ es, c.edges.lookup p.1 = some es
  edgesOk : ∀ q ∈ c.edges, ∀ x ∈ q.2, (∃ p ∈ c.locations, p.2 = x.2.target) ∧
    GoodTrans (c.decls.clocks.map (·.2)) x.2
  init : ∀ l, c.initial = some l → (∃ p ∈ c.locations, p.2 = l) ∧ l.ty = .initial

theorem buildLocations_spec {d : Decls} {ls : List Location} {m : List (LocId × LocTree F)}
    (h : CompComp.buildLocations d ls = .ok m) :
    (m.map (·.1)).Nodup ∧ (∀ p ∈ m, p.2.id = p.1 ∧ ∃ l ∈ ls, LocTree.simple d l = .ok p.2) ∧
    (∀ l ∈ ls, LocId.simple l.id ∈ m.map (·.1)) := by
  unfold CompComp.buildLocations at h
  obtain ⟨trees, h1, h2⟩ := bind_ok h
  cases h2
  have h1 := mapM_ok.1 h1
  have h3 := forall2_mem_right h1
  have h4 := forall2_mem_left h1
  have key : ∀ (ts : List (LocTree F)) (m : List (LocId × LocTree F)), (m.map (·.1)).Nodup →
      ((ts.foldl (fun m t => hmInsert t.id t m) m).map (·.1)).Nodup ∧
      (∀ p ∈ ts.foldl (fun m t => hmInsert t.id t m) m, p ∈ m ∨ ∃ t ∈ ts, p = (t.id, t)) ∧
      (∀ x, (x ∈ m.map (·.1) ∨ ∃ t ∈ ts, t.id = x) →
        x ∈ (ts.foldl (fun m t => hmInsert t.id t m) m).map (·.1)) := by
    intro ts
    induction ts with
    | nil => intro m hm; exact ⟨hm, fun p hp => .inl hp, by rintro x (h | ⟨t, ht, _⟩); exact h; cases ht⟩
    | cons t ts ih =>
      intro m hm
      obtain ⟨i1, i2, i3⟩ := ih (hmInsert t.id t m) (hmInsert_nodup hm)
      refine ⟨i1, fun p hp => ?_, fun x hx => ?_⟩
      · rcases i2 p hp with h | ⟨t', ht', h⟩
        · rcases mem_hmInsert h with h | h
          · exact .inr ⟨t, by simp, h⟩
          · exact .inl h
        · exact .inr ⟨t', by simp [ht'], h⟩
      · apply i3
        rw [hmInsert_keys]
        rcases hx with h | ⟨t', ht', h⟩
        · exact .inl (.inr h)
        · rcases List.mem_cons.1 ht' with rfl | ht'
          · exact .inl (.inl h.symm)
          · exact .inr ⟨t', ht', h⟩
  obtain ⟨k1, k2, k3⟩ := key trees [] (by simp)
  refine ⟨k1, fun p hp => ?_, fun l hl => ?_⟩
  · rcases k2 p hp with h | ⟨t, ht, rfl⟩
    · cases h
    · exact ⟨rfl, h3 t ht⟩
  · obtain ⟨t, ht, hs⟩ := h4 l hl
    obtain ⟨inv, rfl, _⟩ := simple_spec hs
    exact k3 _ (.inr ⟨_, ht, rfl⟩)

omit [ZoneLib F] in
theorem pushEdge_spec {id : LocId} {x : String × Transition F} :
    ∀ {m m' : List (LocId × List (String × Transition F))}, CompComp.pushEdge id x m = .ok m' →
      m'.map (·.1) = m.map (·.1) ∧
      ∀ q ∈ m', ∀ y ∈ q.2, (y = x) ∨ ∃ q' ∈ m, q'.1 = q.1 ∧ y ∈ q'.2 := by
  intro m
  induction m with
  | nil => intro m' h; cases h
  | cons p m ih =>
    intro m' h
    obtain ⟨k, es⟩ := p
    unfold CompComp.pushEdge at h
    split at h
    · cases h
      refine ⟨rfl, fun q hq y hy => ?_⟩
      rcases List.mem_cons.1 hq with rfl | hq
      · rcases List.mem_append.1 hy with hy | hy
        · exact .inr ⟨(k, es), by simp, rfl, hy⟩
        · exact .inl (by simpa using hy)
      · exact .inr ⟨q, by simp [hq], rfl, hy⟩
    · obtain ⟨m1, h1, h2⟩ := bind_ok h
      cases h2
      obtain ⟨i1, i2⟩ := ih h1
      refine ⟨by simp [i1], fun q hq y hy => ?_⟩
      rcases List.mem_cons.1 hq with rfl | hq
      · exact .inr ⟨(k, es), by simp, rfl, hy⟩
      · rcases i2 q hq y hy with h | ⟨q', hq', h⟩
        · exact .inl h
        · exact .inr ⟨q', by simp [hq'], h⟩

theorem buildEdges_spec {c : Component} : ∀ {es : List Edge}
    {m m' : List (LocId × List (String × Transition F))}, CompComp.buildEdges c es m = .ok m' →
      m'.map (·.1) = m.map (·.1) ∧
      ∀ q ∈ m', ∀ y ∈ q.2, (∃ e ∈ es, Transition.fromEdge c e = .ok y.2) ∨
        ∃ q' ∈ m, q'.1 = q.1 ∧ y ∈ q'.2 := by
  intro es
  induction es with
  | nil => intro m m' h; cases h; exact ⟨rfl, fun q hq y hy => .inr ⟨q, hq, rfl, hy⟩⟩
  | cons e es ih =>
    intro m m' h
    unfold CompComp.buildEdges at h
    obtain ⟨t, h1, h⟩ := bind_ok h
    obtain ⟨m1, h2, h⟩ := bind_ok h
    obtain ⟨i1, i2⟩ := ih h
    obtain ⟨j1, j2⟩ := pushEdge_spec h2
    refine ⟨i1.trans j1, fun q hq y hy => ?_⟩
    rcases i2 q hq y hy with ⟨e', he', h⟩ | ⟨q', hq', hk, hy'⟩
    · exact .inl ⟨e', by simp [he'], h⟩
    · rcases j2 q' hq' y hy' with rfl | ⟨q'', hq'', hk', hy''⟩
      · exact .inl ⟨e, by simp, h1⟩
      · exact .inr ⟨q'', hq'', hk'.trans hk, hy''⟩

theorem compileUpdates_spec {d : Decls} {us : List Update} {r : List CUpdate}
    (h : us.mapM (CUpdate.compile d) = .ok r) :
    ∀ cu ∈ r, ∃ u ∈ us, u.expr = .int cu.value ∧ d.clockIndex u.var = some cu.clock := by
  intro cu hcu
  obtain ⟨u, hu, h⟩ := forall2_mem_right (mapM_ok.1 h) cu hcu
  refine ⟨u, hu, ?_⟩
  unfold CUpdate.compile at h
  split at h
  · split at h
    · cases h; constructor <;> assumption
    · cases h
  · cases h

theorem fromEdge_spec {c : Component} {e : Edge} {t : Transition F}
    (h : Transition.fromEdge c e = .ok t) :
    (∃ l, c.locations.filter (fun l => l.id = e.target) = [l] ∧
      LocTree.simple c.decls l = .ok t.target) ∧
    t.id = .simple e.id ∧
    (e.update = none → t.updates = []) ∧
    (∀ us, e.update = some us → us.mapM (CUpdate.compile c.decls) = .ok t.updates) ∧
    (e.guard = none → t.guard = univ) ∧
    (∀ g, e.guard = some g → applyConstraints c.decls g univ = .ok t.guard) := by
  unfold Transition.fromEdge at h
  obtain ⟨l, h1, h⟩ := bind_ok h
  obtain ⟨target, h2, h⟩ := bind_ok h
  obtain ⟨us, h3, h⟩ := bind_ok h
  obtain ⟨g, h4, h⟩ := bind_ok h
  cases h
  refine ⟨⟨l, ?_, h2⟩, rfl, ?_, ?_, ?_, ?_⟩
  · unfold Component.locationByName at h1
    split at h1
    · rename_i h; cases h1; exact h
    · cases h1
  · intro hn; simp only [Edge.compileUpdates, hn] at h3; cases h3; rfl
  · intro us' hs; simp only [Edge.compileUpdates, hs] at h3; exact h3
  · intro hn; simp only [Edge.applyGuard, hn] at h4; cases h4; rfl
  · intro g' hs; simp only [Edge.applyGuard, hs] at h4; exact orPanic_ok h4

theorem filter_singleton_mem {α : Type} {p : α → Bool} {l : List α} {a : α} (h : l.filter p = [a]) :
    a ∈ l ∧ p a = true := by
  have : a ∈ l.filter p := by rw [h]; simp
  exact List.mem_filter.1 this

theorem compileWith_wf {order : List (LocId × LocTree F) → List (LocId × LocTree F)} {c : Component}
    {ins outs : List String} {id : Nat} {x : CompComp F} (hc : c.Ok (dim F))
    (ho : ∀ l, (order l).Perm l) (h : CompComp.compileWith order c ins outs id = .ok x) : x.WF := by
  unfold CompComp.compileWith at h
  split at h
  · cases h
  rename_i hdis
  simp only [Bool.not_eq_true, Bool.not_eq_false'] at hdis
  obtain ⟨locs0, h1, h⟩ := bind_ok h
  obtain ⟨edges, h2, h⟩ := bind_ok h
  cases h
  obtain ⟨b1, b2, b3⟩ := buildLocations_spec h1
  have hmem : ∀ p, p ∈ order locs0 ↔ p ∈ locs0 := fun p => (ho locs0).mem_iff
  obtain ⟨e1, e2⟩ := buildEdges_spec h2
  have hek : edges.map (·.1) = (order locs0).map (·.1) := by
    rw [e1, List.map_map]; rfl
  have keysNodup : ((order locs0).map (·.1)).Nodup := ((ho locs0).map _).nodup_iff.2 b1
  -- the target of an edge is the location with its name
  have target : ∀ e ∈ c.edges, ∀ t : Transition F, Transition.fromEdge c e = .ok t →
      ∃ p ∈ order locs0, p.2 = t.target := by
    intro e _ t ht
    obtain ⟨⟨l, hl, hs⟩, _⟩ := fromEdge_spec ht
    obtain ⟨hlm, hlid⟩ := filter_singleton_mem hl
    obtain ⟨p, hp, hk⟩ := List.mem_map.1 (b3 l hlm)
    obtain ⟨hid, l', hl', hs'⟩ := b2 p hp
    refine ⟨p, (hmem p).2 hp, ?_⟩
    obtain ⟨inv, hp2, _⟩ := simple_spec hs'
    have hidl : l'.id = l.id := by
      rw [hp2] at hid; rw [← hid] at hk; simp only [LocTree.id, LocId.simple.injEq] at hk; exact hk
    have : l' ∈ c.locations.filter (fun l => l.id = e.target) := by
      rw [List.mem_filter]; exact ⟨hl', by simpa [hidl] using hlid⟩
    rw [hl] at this
    simp only [List.mem_singleton] at this
    subst this
    rw [hs] at hs'; exact (Except.ok.inj hs').symm
  constructor
  · exact setDisjoint_iff.1 hdis
  · exact hc.decls
  · exact keysNodup
  · intro p hp; exact (b2 p ((hmem p).1 hp)).1
  · intro p hp
    obtain ⟨_, l, _, hs⟩ := b2 p ((hmem p).1 hp)
    obtain ⟨inv, h, _⟩ := simple_spec hs
    exact ⟨_, _, _, h⟩
  · intro p hp
    obtain ⟨_, l, hl, hs⟩ := b2 p ((hmem p).1 hp)
    exact simple_inv_local hc.decls (hc.invs l hl) hs
  · intro p hp
    have : p.1 ∈ edges.map (·.1) := by rw [hek]; exact List.mem_map.2 ⟨p, hp, rfl⟩
    obtain ⟨v, hv, _⟩ := lookup_isSome this
    exact ⟨v, hv⟩
  · intro q hq y hy
    rcases e2 q hq y hy with ⟨e, he, ht⟩ | ⟨q', hq', _, hy'⟩
    · refine ⟨target e he _ ht, ?_⟩
      obtain ⟨⟨l, hl, hs⟩, _, hu1, hu2, hg1, hg2⟩ := fromEdge_spec ht
      obtain ⟨hlm, _⟩ := filter_singleton_mem hl
      have hup : ∀ cu ∈ y.2.updates, cu.clock ∈ c.decls.clocks.map (·.2) ∧ 0 ≤ cu.value := by
        intro cu hcu
        cases hu : e.update with
        | none => rw [hu1 hu] at hcu; cases hcu
        | some us =>
          obtain ⟨u, hum, hue, huc⟩ := compileUpdates_spec (hu2 us hu) cu hcu
          refine ⟨?_, hc.updates e he us hu u hum _ hue⟩
          exact List.mem_map.2 ⟨_, lookup_mem huc, rfl⟩
      constructor
      · intro cu hcu
        obtain ⟨h1, h2⟩ := hup cu hcu
        obtain ⟨p, hp, hpc⟩ := List.mem_map.1 h1
        have := hc.decls p hp
        rw [hpc] at this
        exact ⟨this.1, this.2, h2⟩
      · exact fun cu hcu => (hup cu hcu).1
      · cases hg : e.guard with
        | none => rw [hg1 hg, den_univ]; exact fun v w _ hw _ _ => hw
        | some g => exact apply_univ_local hc.decls (hc.guards e he g hg) (hg2 g hg)
      · exact simple_inv_local hc.decls (hc.invs l hlm) hs
    · obtain ⟨p, _, rfl⟩ := List.mem_map.1 hq'
      cases hy'
  · intro l hl
    have hm := List.mem_of_find?_eq_some hl
    have hi := List.find?_some hl
    obtain ⟨p, hp, rfl⟩ := List.mem_map.1 hm
    exact ⟨⟨p, hp, rfl⟩, by simpa [LocTree.isInitial] using hi⟩

end Reveaal
