import Verif.Lemmas.Reduced

/-!
# A component and the same component after clock reduction are alike
-/

namespace Reveaal
open ZoneLib
variable {F G : Type} [ZoneLib F] [ZoneLib G]

/-- The component without the clocks with indices in `rem`, and with the other clocks renumbered by `f`. -/
def Component.reduced (rem : List Nat) (f : Nat → Nat) (c : Component) : Component := (c.without rem).withClocks f

/-- A component fit for reduction: clocks have different names, are mentioned by name, and guards and invariants
are applied as they are written. -/
structure Component.Reducible (c : Component) (n : Nat) : Prop where
  clear : c.Clear n
  byName : c.ByName
  names : (c.decls.clocks.map (·.1)).Nodup

/-- Guards and invariants that mention one of the clocks can never hold. -/
def Component.HarmlessFor (c : Component) (rem : List Nat) : Prop :=
  ∀ n i, i ∈ rem → (n, i) ∈ c.decls.clocks →
    (∀ e ∈ c.edges, ∀ g, e.guard = some g → Harmless c.decls n g) ∧
    ∀ l ∈ c.locations, ∀ g, l.invariant = some g → Harmless c.decls n g

/-- What a clock map does to the clocks of a component. -/
def ClockMap.On (ρ : ClockMap) (rem : List Nat) (f : Nat → Nat) (c : Component) : Prop :=
  ∀ p ∈ c.decls.clocks, ρ p.2 = if p.2 ∈ rem then none else some (f p.2)

theorem lookup_strip {N : List String} {d : Decls} {n : String} (hn : n ∉ N) :
    (d.strip N).clocks.lookup n = d.clocks.lookup n := by
  unfold Decls.strip
  dsimp only
  induction d.clocks with
  | nil => rfl
  | cons p m ih =>
    obtain ⟨k, v⟩ := p
    by_cases hk : k ∈ N
    · rw [List.filter_cons_of_neg (by simpa using hk), ih, List.lookup_cons]
      have : (n == k) = false := by
        rw [beq_eq_false_iff_ne]
        rintro rfl
        exact hn hk
      rw [this]
    · rw [List.filter_cons_of_pos (by simpa using hk), List.lookup_cons, List.lookup_cons, ih]

theorem lookup_strip_none {N : List String} {d : Decls} {n : String} (hn : n ∈ N) :
    (d.strip N).clocks.lookup n = none := by
  cases h : (d.strip N).clocks.lookup n with
  | none => rfl
  | some i =>
    have := List.mem_filter.1 (lookup_mem h)
    simp [hn] at this

theorem lookup_withClocks {m : List (String × Nat)} {f : Nat → Nat} {n : String} :
    (m.map fun p => (p.1, f p.2)).lookup n = (m.lookup n).map f := by
  induction m with
  | nil => rfl
  | cons p m ih =>
    obtain ⟨k, v⟩ := p
    rw [List.map_cons, List.lookup_cons, List.lookup_cons, ih]
    cases n == k <;> rfl

section Guards
variable {c : Component} {rem : List Nat} {f : Nat → Nat} {ρ : ClockMap}

theorem agreeOn_reduced (hn : (c.decls.clocks.map (·.1)).Nodup) (hρ : ρ.On rem f c) {v w : Val} (ha : ρ.Agree v w) :
    AgreeOn (c.without rem).decls (c.reduced rem f).decls v w := by
  intro n i i' h h'
  have hm := List.mem_filter.1 (lookup_mem h)
  have h2 : (c.reduced rem f).decls.clocks.lookup n = ((c.without rem).decls.clocks.lookup n).map f :=
    lookup_withClocks
  rw [h, h'] at h2
  simp only [Option.map_some, Option.some.injEq] at h2
  subst h2
  have hrem : i ∉ rem := by
    intro hi
    have : n ∈ c.decls.namesOf rem := Decls.mem_namesOf.2 ⟨i, hi, hm.1⟩
    have h3 := hm.2
    simp [this] at h3
  have := hρ _ hm.1
  rw [if_neg hrem] at this
  exact (ha _ _ this).symm

theorem strip_sameFor {g : BoolE} {N : List String} {d : Decls} (hg : N.any g.hasVar = false) :
    SameFor d (d.strip N) fun n => g.hasVar n := by
  refine ⟨rfl, fun n hn => (lookup_strip ?_).symm⟩
  intro hm
  have : N.any g.hasVar = true := List.any_eq_true.2 ⟨n, hm, hn⟩
  rw [hg] at this
  cases this

theorem holds_reduced (hn : (c.decls.clocks.map (·.1)).Nodup) (hρ : ρ.On rem f c) {g : BoolE} (hg : g.NamesOnly)
    (hh : ∀ n ∈ c.decls.namesOf rem, Harmless c.decls n g) {v w : Val} (ha : ρ.Agree v w) :
    Holds (c.reduced rem f).decls w (g.strip (c.decls.namesOf rem)) ↔ Holds c.decls v g := by
  unfold BoolE.strip
  cases hany : (c.decls.namesOf rem).any g.hasVar with
  | true =>
    obtain ⟨n, hm, hv⟩ := List.any_eq_true.1 hany
    simp only [if_true]
    exact ⟨fun h => absurd h (by simp [Holds]), fun h => absurd h (hh n hm hv v)⟩
  | false =>
    simp only [Bool.false_eq_true, if_false]
    rw [holds_congr (d := c.decls) g (strip_sameFor hany)]
    exact holds_renumber (withClocks_names (c.without rem) f) rfl (agreeOn_reduced hn hρ ha) hg

theorem good_reduced {g : BoolE} (hg : g.NamesOnly) (h : GoodGuard c.decls g) :
    GoodGuard (c.reduced rem f).decls (g.strip (c.decls.namesOf rem)) := by
  unfold BoolE.strip
  cases hany : (c.decls.namesOf rem).any g.hasVar with
  | true => trivial
  | false =>
    simp only [Bool.false_eq_true, if_false]
    exact goodGuard_renumber (d := (c.without rem).decls) (withClocks_names (c.without rem) f) rfl hg
      (goodGuard_congr (strip_sameFor hany) h)

theorem namesOnly_strip {g : BoolE} (hg : g.NamesOnly) (N : List String) : (g.strip N).NamesOnly := by
  unfold BoolE.strip
  split
  · trivial
  · exact hg

theorem inDim_reduced (hρ : ρ.On rem f c) (hf : ρ.Fits (dim F) (dim G)) : (c.reduced rem f).decls.InDim (dim G) := by
  intro p hp
  obtain ⟨q, hq, rfl⟩ := List.mem_map.1 hp
  have hq := List.mem_filter.1 hq
  have hrem : q.2 ∉ rem := by
    intro hi
    have : q.1 ∈ c.decls.namesOf rem := Decls.mem_namesOf.2 ⟨q.2, hi, hq.1⟩
    have h3 := hq.2
    simp [this] at h3
  have := hρ q hq.1
  rw [if_neg hrem] at this
  exact (hf _ _ this).2

theorem guardZone_alike (hc : c.Reducible (dim F)) (hρ : ρ.On rem f c) (hf : ρ.Fits (dim F) (dim G)) {g : BoolE}
    (hg : g.NamesOnly) (hgood : GoodGuard c.decls g) (hh : ∀ n ∈ c.decls.namesOf rem, Harmless c.decls n g) {z : F}
    {z' : G} (h : applyConstraints c.decls g univ = .ok z)
    (h' : applyConstraints (c.reduced rem f).decls (g.strip (c.decls.namesOf rem)) univ = .ok z') :
    ZoneAlike ρ z z' := by
  intro v w hv hw ha
  rw [applied_exact hc.clear.ok.decls (namesOnly_clocksIn hg _) hgood h hv,
    applied_exact (inDim_reduced hρ hf) (namesOnly_clocksIn (namesOnly_strip hg _) _) (good_reduced hg hgood) h' hw]
  exact (holds_reduced hc.names hρ hg hh ha).symm

theorem HarmlessFor.inv (hh : c.HarmlessFor rem) {l : Location} (hl : l ∈ c.locations) {g : BoolE}
    (hg : l.invariant = some g) : ∀ n ∈ c.decls.namesOf rem, Harmless c.decls n g := by
  intro n hn
  obtain ⟨i, hi, hm⟩ := Decls.mem_namesOf.1 hn
  exact (hh n i hi hm).2 l hl g hg

theorem HarmlessFor.guard (hh : c.HarmlessFor rem) {e : Edge} (he : e ∈ c.edges) {g : BoolE}
    (hg : e.guard = some g) : ∀ n ∈ c.decls.namesOf rem, Harmless c.decls n g := by
  intro n hn
  obtain ⟨i, hi, hm⟩ := Decls.mem_namesOf.1 hn
  exact (hh n i hi hm).1 e he g hg

theorem simple_alike (hc : c.Reducible (dim F)) (hρ : ρ.On rem f c) (hf : ρ.Fits (dim F) (dim G))
    (hh : c.HarmlessFor rem) {loc : Location} (hl : loc ∈ c.locations) {l : LocTree F} {l' : LocTree G}
    (h : LocTree.simple c.decls loc = .ok l)
    (h' : LocTree.simple (c.reduced rem f).decls (loc.strip (c.decls.namesOf rem)) = .ok l') : LocAlike ρ l l' := by
  obtain ⟨inv, rfl, h1, h2⟩ := simple_spec h
  obtain ⟨inv', rfl, h1', h2'⟩ := simple_spec h'
  refine .leaf ?_
  cases hi : loc.invariant with
  | none =>
    rw [h1 hi, h1' (by unfold Location.strip; rw [hi]; rfl)]
    exact .none
  | some g =>
    obtain ⟨z, h3, rfl⟩ := h2 g hi
    obtain ⟨z', h3', rfl⟩ := h2' (g.strip (c.decls.namesOf rem)) (by unfold Location.strip; rw [hi]; rfl)
    exact .some (guardZone_alike hc hρ hf (hc.byName.invs loc hl g hi) (hc.clear.invs loc hl g hi)
      (HarmlessFor.inv hh hl hi) h3 h3')

theorem updates_reduced (hn : (c.decls.clocks.map (·.1)).Nodup) (hρ : ρ.On rem f c) :
    ∀ {us : List Update} {cs cs' : List CUpdate}, us.mapM (CUpdate.compile c.decls) = .ok cs →
      (us.filter fun u => !((c.decls.namesOf rem).contains u.var)).mapM (CUpdate.compile (c.reduced rem f).decls) =
        .ok cs' → cs' = ρ.updates cs
  | [], cs, cs', h, h' => by cases h; cases h'; rfl
  | u :: us, cs, cs', h, h' => by
    rw [List.mapM_cons] at h
    obtain ⟨a, ha, h⟩ := bind_ok h
    obtain ⟨t, ht, h⟩ := bind_ok h
    cases h
    obtain ⟨x, e⟩ := u
    unfold CUpdate.compile at ha
    cases e with
    | int k =>
      dsimp only [Decls.clockIndex] at ha
      cases hl : c.decls.clocks.lookup x with
      | none => rw [hl] at ha; cases ha
      | some i =>
        rw [hl] at ha
        cases ha
        have hm := lookup_mem hl
        have hx : x ∈ c.decls.namesOf rem ↔ i ∈ rem := by
          rw [Decls.mem_namesOf]
          constructor
          · rintro ⟨j, hj, hm'⟩
            have := congrArg Prod.snd (List.inj_on_of_nodup_map hn hm hm' rfl)
            dsimp only at this
            rw [this]; exact hj
          · exact fun hi => ⟨i, hi, hm⟩
        have hr := hρ _ hm
        dsimp only at hr
        by_cases hi : i ∈ rem
        · rw [List.filter_cons_of_neg (by simpa using hx.2 hi)] at h'
          rw [updates_reduced hn hρ ht h']
          unfold ClockMap.updates
          rw [List.filterMap_cons]
          dsimp only
          rw [hr, if_pos hi]
          rfl
        · have hxn : x ∉ c.decls.namesOf rem := fun h => hi (hx.1 h)
          rw [List.filter_cons_of_pos (by simpa using hxn)] at h'
          rw [List.mapM_cons] at h'
          obtain ⟨a', ha', h'⟩ := bind_ok h'
          obtain ⟨t', ht', h'⟩ := bind_ok h'
          cases h'
          rw [updates_reduced hn hρ ht ht']
          unfold ClockMap.updates
          rw [List.filterMap_cons]
          dsimp only
          rw [hr, if_neg hi]
          have hl' : (c.reduced rem f).decls.clocks.lookup x = some (f i) := by
            show ((c.decls.strip (c.decls.namesOf rem)).clocks.map fun p => (p.1, f p.2)).lookup x = _
            rw [lookup_withClocks, lookup_strip hxn, hl]
            rfl
          unfold CUpdate.compile at ha'
          dsimp only [Decls.clockIndex] at ha'
          rw [hl'] at ha'
          cases ha'
          rfl
    | _ => cases ha

theorem fromEdge_alike (hc : c.Reducible (dim F)) (hρ : ρ.On rem f c) (hf : ρ.Fits (dim F) (dim G))
    (hh : c.HarmlessFor rem) {e : Edge} (he : e ∈ c.edges) {t : Transition F} {t' : Transition G}
    (h : Transition.fromEdge c e = .ok t)
    (h' : Transition.fromEdge (c.reduced rem f) (e.strip (c.decls.namesOf rem)) = .ok t') : TransAlike ρ t t' := by
  obtain ⟨⟨l, a1, a2⟩, a3, _, _, a4, a5⟩ := fromEdge_spec h
  obtain ⟨⟨l', b1, b2⟩, b3, _, _, b4, b5⟩ := fromEdge_spec h'
  refine ⟨b3.trans a3.symm, ?_, ?_, ?_⟩
  · cases hg : e.guard with
    | none =>
      rw [a4 hg, b4 (by unfold Edge.strip; rw [hg]; rfl)]
      exact ZoneAlike.univ
    | some g =>
      exact guardZone_alike hc hρ hf (hc.byName.guards e he g hg) (hc.clear.guards e he g hg)
        (HarmlessFor.guard hh he hg) (a5 g hg) (b5 _ (by unfold Edge.strip; rw [hg]; rfl))
  · have hl : l ∈ c.locations.filter fun l => l.id = e.target := a1 ▸ List.mem_singleton.2 rfl
    have : l' = l.strip (c.decls.namesOf rem) := by
      have h1 : (c.reduced rem f).locations.filter (fun l => l.id = e.target) =
          (c.locations.filter fun l => l.id = e.target).map (Location.strip (c.decls.namesOf rem)) := by
        show (c.locations.map (Location.strip (c.decls.namesOf rem))).filter _ = _
        rw [List.filter_map]
        rfl
      rw [a1] at h1
      have h2 := h1.symm.trans b1
      simpa using h2.symm
    subst this
    exact simple_alike hc hρ hf hh (List.mem_filter.1 hl).1 a2 b2
  · have h1 := fromEdge_mapM h
    have h2 := fromEdge_mapM h'
    refine updates_reduced hc.names hρ h1 ?_
    rw [← h2]
    congr 1
    unfold Edge.strip
    cases e.update <;> rfl

end Guards

/-! ## Compiled components -/

theorem compiled_loc {c : Component} {order : List (LocId × LocTree F) → List (LocId × LocTree F)}
    (ho : ∀ l, (order l).Perm l) {ins outs : List String} {id : Nat} {x : CompComp F}
    (hx : CompComp.compileWith order c ins outs id = .ok x) (hids : (c.locations.map (·.id)).Nodup) {loc : Location}
    (hloc : loc ∈ c.locations) : ∃ l, (Sys.comp x).IsLoc l ∧ LocTree.simple c.decls loc = .ok l := by
  obtain ⟨_, _, hlocs, _⟩ := compileWith_content ho hx
  have : ∃ q ∈ x.locations, q.1 = .simple loc.id := by
    unfold CompComp.compileWith at hx
    split at hx
    · cases hx
    obtain ⟨locs0, h1, hx⟩ := bind_ok hx
    obtain ⟨edges, h2, hx⟩ := bind_ok hx
    cases hx
    obtain ⟨_, _, hb⟩ := buildLocations_spec h1
    obtain ⟨q, hq, he⟩ := List.mem_map.1 (hb loc hloc)
    exact ⟨q, (ho locs0).mem_iff.2 hq, he⟩
  obtain ⟨q, hq, he⟩ := this
  obtain ⟨hid, loc2, hloc2, hs2⟩ := hlocs q hq
  obtain ⟨_, h1, _⟩ := simple_spec hs2
  have : loc2 = loc := List.inj_on_of_nodup_map hids hloc2 hloc (by
    rw [he, h1] at hid
    injection hid)
  subst this
  exact ⟨q.2, ⟨q, hq, rfl⟩, hs2⟩

theorem compiled_initial {c : Component} {order : List (LocId × LocTree F) → List (LocId × LocTree F)}
    (ho : ∀ l, (order l).Perm l) {ins outs : List String} {id : Nat} {x : CompComp F}
    (hx : CompComp.compileWith order c ins outs id = .ok x) {l : LocTree F} (h : x.initial = some l) :
    ∃ loc ∈ c.locations, loc.ty = .initial ∧ LocTree.simple c.decls loc = .ok l := by
  rw [initial_find hx] at h
  obtain ⟨p, hp, rfl⟩ := List.mem_map.1 (List.mem_of_find?_eq_some h)
  have hpi := List.find?_some h
  obtain ⟨_, _, hlocs, _⟩ := compileWith_content ho hx
  obtain ⟨_, loc, hloc, hs⟩ := hlocs p hp
  refine ⟨loc, hloc, ?_, hs⟩
  obtain ⟨_, h1, _⟩ := simple_spec hs
  rw [h1] at hpi
  exact of_decide_eq_true hpi

theorem initial_compiled {c : Component} {order : List (LocId × LocTree F) → List (LocId × LocTree F)}
    (ho : ∀ l, (order l).Perm l) {ins outs : List String} {id : Nat} {x : CompComp F}
    (hx : CompComp.compileWith order c ins outs id = .ok x) (hids : (c.locations.map (·.id)).Nodup)
    (huniq : ∀ l ∈ c.locations, ∀ l' ∈ c.locations, l.ty = .initial → l'.ty = .initial → l.id = l'.id)
    {loc : Location} (hloc : loc ∈ c.locations) (hty : loc.ty = .initial) :
    ∃ l, x.initial = some l ∧ LocTree.simple c.decls loc = .ok l := by
  obtain ⟨l, ⟨p, hp, rfl⟩, hs⟩ := compiled_loc ho hx hids hloc
  cases hi : x.initial with
  | none =>
    rw [initial_find hx] at hi
    refine absurd ?_ (List.find?_eq_none.1 hi _ (List.mem_map.2 ⟨p, hp, rfl⟩))
    obtain ⟨_, h1, _⟩ := simple_spec hs
    rw [h1]
    simp [LocTree.isInitial, LocTree.ty, hty]
  | some m =>
    obtain ⟨loc2, hloc2, hty2, hs2⟩ := compiled_initial ho hx hi
    have := List.inj_on_of_nodup_map hids hloc2 hloc (huniq _ hloc2 _ hloc hty2 hty)
    subst this
    exact ⟨m, rfl, hs2⟩

theorem specificActions_reduced (c : Component) (rem : List Nat) (f : Nat → Nat) (s : SyncType) :
    (c.reduced rem f).specificActions s = c.specificActions s := by
  unfold Component.specificActions
  congr 1
  show List.map _ (List.filter _ (c.edges.map (Edge.strip _))) = _
  rw [List.filter_map, List.map_map]
  rfl

/-- A component and its reduction are compiled to alike components. -/
theorem compAlike_reduced {c : Component} {rem : List Nat} {f : Nat → Nat} {ρ : ClockMap} (hc : c.Reducible (dim F))
    (hρ : ρ.On rem f c) (hf : ρ.Fits (dim F) (dim G)) (hh : c.HarmlessFor rem)
    {order : List (LocId × LocTree F) → List (LocId × LocTree F)} (ho : ∀ l, (order l).Perm l)
    {order' : List (LocId × LocTree G) → List (LocId × LocTree G)} (ho' : ∀ l, (order' l).Perm l) {id id' : Nat}
    {x : CompComp F} {x' : CompComp G} (hx : CompComp.compile order c id = .ok x)
    (hx' : CompComp.compile order' (c.reduced rem f) id' = .ok x') : CompAlike ρ x x' := by
  unfold CompComp.compile at hx hx'
  rw [specificActions_reduced, specificActions_reduced] at hx'
  obtain ⟨i1, o1, _⟩ := compileWith_content ho hx
  obtain ⟨i2, o2, _⟩ := compileWith_content ho' hx'
  have hmem : ∀ l ∈ (c.reduced rem f).locations, ∃ l0 ∈ c.locations, l = l0.strip (c.decls.namesOf rem) := by
    intro l hl
    obtain ⟨l0, h0, rfl⟩ := List.mem_map.1 hl
    exact ⟨l0, h0, rfl⟩
  have hids : ((c.reduced rem f).locations.map (·.id)).Nodup := by
    show ((c.locations.map (Location.strip _)).map (·.id)).Nodup
    rw [List.map_map]
    exact hc.clear.ids
  have huniq : ∀ l ∈ (c.reduced rem f).locations, ∀ l' ∈ (c.reduced rem f).locations, l.ty = .initial →
      l'.ty = .initial → l.id = l'.id := by
    intro l hl l' hl' h h'
    obtain ⟨a, ha, rfl⟩ := hmem l hl
    obtain ⟨b, hb, rfl⟩ := hmem l' hl'
    exact hc.clear.initial a ha b hb h h'
  refine ⟨i2.trans i1.symm, o2.trans o1.symm, ?_, ?_⟩
  · cases hi : x.initial with
    | some l =>
      obtain ⟨loc, hloc, hty, hs⟩ := compiled_initial ho hx hi
      obtain ⟨l', h1, h2⟩ := initial_compiled ho' hx' hids huniq (loc := loc.strip (c.decls.namesOf rem))
        (List.mem_map.2 ⟨loc, hloc, rfl⟩) hty
      exact .inr ⟨l, l', rfl, h1, simple_alike hc hρ hf hh hloc hs h2⟩
    | none =>
      refine .inl ⟨rfl, ?_⟩
      cases hi' : x'.initial with
      | none => rfl
      | some l' =>
        obtain ⟨loc, hloc, hty, hs⟩ := compiled_initial ho' hx' hi'
        obtain ⟨loc0, hloc0, rfl⟩ := hmem loc hloc
        obtain ⟨l, h1, _⟩ := initial_compiled ho hx hc.clear.ids hc.clear.initial hloc0 hty
        rw [hi] at h1
        cases h1
  · intro l hl
    obtain ⟨loc, hloc, hs, es, hes, hfe⟩ := compile_next_exact ho hx hl
    obtain ⟨l', hl', hs'⟩ := compiled_loc ho' hx' hids (loc := loc.strip (c.decls.namesOf rem))
      (List.mem_map.2 ⟨loc, hloc, rfl⟩)
    obtain ⟨loc', _, hs2, es', hes', hfe'⟩ := compile_next_exact ho' hx' hl'
    have hid : l'.id = l.id := (simple_alike hc hρ hf hh hloc hs hs').eqs.1
    have hid' : loc'.id = loc.id := by
      obtain ⟨_, h1, _⟩ := simple_spec hs'
      obtain ⟨_, h2, _⟩ := simple_spec hs2
      have := h1.symm.trans h2
      injection this with this
      injection this with this
      exact this.symm
    refine ⟨es, es', hes, by rw [← hid]; exact hes', ?_⟩
    have hfil : (c.reduced rem f).edges.filter (fun e => e.source = loc'.id) =
        (c.edges.filter fun e => e.source = loc.id).map (Edge.strip (c.decls.namesOf rem)) := by
      show (c.edges.map (Edge.strip (c.decls.namesOf rem))).filter _ = _
      rw [List.filter_map, hid']
      rfl
    rw [hfil, List.forall₂_map_left_iff] at hfe'
    have key : ∀ {l : List Edge} {es : List (String × Transition F)} {es' : List (String × Transition G)},
        (∀ e ∈ l, e ∈ c.edges) →
        List.Forall₂ (fun (e : Edge) y => y.1 = e.action ∧ Transition.fromEdge c e = .ok y.2) l es →
        List.Forall₂ (fun (e : Edge) y => y.1 = (e.strip (c.decls.namesOf rem)).action ∧
          Transition.fromEdge (c.reduced rem f) (e.strip (c.decls.namesOf rem)) = .ok y.2) l es' →
        List.Forall₂ (fun y y' => y'.1 = y.1 ∧ TransAlike ρ y.2 y'.2) es es' := by
      intro l es es' hl h
      induction h generalizing es' with
      | nil => intro h'; cases h'; exact .nil
      | cons h1 _ ih =>
        intro h'
        cases h' with
        | cons h1' h' =>
          exact .cons ⟨h1'.1.trans h1.1.symm, fromEdge_alike hc hρ hf hh (hl _ (by simp)) h1.2 h1'.2⟩
            (ih (fun e he => hl e (by simp [he])) h')
    exact key (fun e he => (List.mem_filter.1 he).1) hfe hfe'

end Reveaal
