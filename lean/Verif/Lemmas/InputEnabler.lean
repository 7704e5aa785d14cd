import Verif.Model.InputEnabler
import Verif.Lemmas.Compile
import Verif.Props.C03
import Mathlib.Data.List.Nodup
import Mathlib.Data.Finset.Card

/-!
# Facts about input enabling
-/

namespace Reveaal
open ZoneLib

variable {F : Type} [ZoneLib F]

/-! ## Every edge of a component is in the compiled component -/

omit [ZoneLib F] in
theorem pushEdge_mem {id : LocId} {x : String × Transition F} :
    ∀ {m m' : List (LocId × List (String × Transition F))}, CompComp.pushEdge id x m = .ok m' →
      (∃ q ∈ m', q.1 = id ∧ x ∈ q.2) ∧ ∀ q ∈ m, ∃ q' ∈ m', q'.1 = q.1 ∧ ∀ y ∈ q.2, y ∈ q'.2 := by
  intro m
  induction m with
  | nil => intro m' h; cases h
  | cons p m ih =>
    intro m' h
    obtain ⟨k, es⟩ := p
    unfold CompComp.pushEdge at h
    split at h
    · rename_i hk
      cases h
      refine ⟨⟨_, List.mem_cons_self, hk, by simp⟩, fun q hq => ?_⟩
      rcases List.mem_cons.1 hq with rfl | hq
      · exact ⟨_, List.mem_cons_self, rfl, fun y hy => by simp [hy]⟩
      · exact ⟨q, by simp [hq], rfl, fun y hy => hy⟩
    · obtain ⟨m1, h1, h2⟩ := bind_ok h
      cases h2
      obtain ⟨⟨q, hq, i1⟩, i2⟩ := ih h1
      refine ⟨⟨q, by simp [hq], i1⟩, fun q hq => ?_⟩
      rcases List.mem_cons.1 hq with rfl | hq
      · exact ⟨_, List.mem_cons_self, rfl, fun y hy => hy⟩
      · obtain ⟨q', hq', h⟩ := i2 q hq
        exact ⟨q', by simp [hq'], h⟩

theorem buildEdges_mem {c : Component} : ∀ {es : List Edge}
    {m m' : List (LocId × List (String × Transition F))}, CompComp.buildEdges c es m = .ok m' →
      (∀ e ∈ es, ∃ t, Transition.fromEdge c e = .ok t ∧ ∃ q ∈ m', q.1 = .simple e.source ∧ (e.action, t) ∈ q.2) ∧
      ∀ q ∈ m, ∃ q' ∈ m', q'.1 = q.1 ∧ ∀ y ∈ q.2, y ∈ q'.2 := by
  intro es
  induction es with
  | nil => intro m m' h; cases h; exact ⟨fun e he => (by cases he), fun q hq => ⟨q, hq, rfl, fun y hy => hy⟩⟩
  | cons e es ih =>
    intro m m' h
    unfold CompComp.buildEdges at h
    obtain ⟨t, h1, h⟩ := bind_ok h
    obtain ⟨m1, h2, h⟩ := bind_ok h
    obtain ⟨i1, i2⟩ := ih h
    obtain ⟨⟨q, hq, hk, hm⟩, j2⟩ := pushEdge_mem h2
    refine ⟨fun e' he' => ?_, fun q hq => ?_⟩
    · rcases List.mem_cons.1 he' with rfl | he'
      · obtain ⟨q', hq', hk', hm'⟩ := i2 q hq
        exact ⟨t, h1, q', hq', hk'.trans hk, hm' _ hm⟩
      · exact i1 e' he'
    · obtain ⟨q', hq', hk', hm'⟩ := j2 q hq
      obtain ⟨q'', hq'', hk'', hm''⟩ := i2 q' hq'
      exact ⟨q'', hq'', hk''.trans hk', fun y hy => hm'' _ (hm' _ hy)⟩

/-- What compiling keeps of the locations and edges. -/
theorem compileWith_content {order : List (LocId × LocTree F) → List (LocId × LocTree F)} {c : Component}
    {ins outs : List String} {id : Nat} {x : CompComp F}
    (ho : ∀ l, (order l).Perm l) (h : CompComp.compileWith order c ins outs id = .ok x) :
    x.inputs = ins ∧ x.outputs = outs ∧
    (∀ p ∈ x.locations, p.2.id = p.1 ∧ ∃ l ∈ c.locations, LocTree.simple c.decls l = .ok p.2) ∧
    ∀ e ∈ c.edges, ∃ t, Transition.fromEdge c e = .ok t ∧
      ∃ es, x.edges.lookup (.simple e.source) = some es ∧ (e.action, t) ∈ es := by
  unfold CompComp.compileWith at h
  split at h
  · cases h
  obtain ⟨locs0, h1, h⟩ := bind_ok h
  obtain ⟨edges, h2, h⟩ := bind_ok h
  cases h
  obtain ⟨b1, b2, b3⟩ := buildLocations_spec h1
  have hmem : ∀ p, p ∈ order locs0 ↔ p ∈ locs0 := fun p => (ho locs0).mem_iff
  obtain ⟨e1, _⟩ := buildEdges_spec h2
  have hek : edges.map (·.1) = (order locs0).map (·.1) := by
    rw [e1, List.map_map]; rfl
  have keysNodup : (edges.map (·.1)).Nodup := by
    rw [hek]; exact ((ho locs0).map _).nodup_iff.2 b1
  obtain ⟨f1, _⟩ := buildEdges_mem h2
  refine ⟨rfl, rfl, fun p hp => b2 p ((hmem p).1 hp), fun e he => ?_⟩
  obtain ⟨t, ht, q, hq, hk, hm⟩ := f1 e he
  refine ⟨t, ht, q.2, ?_, hm⟩
  exact lookup_of_mem keysNodup (by rw [← hk]; exact hq)

/-! ## Zones of edges -/

theorem BoolE.InDim.of_clocks {d : Decls} {g : BoolE} {n : Nat} (hd : d.InDim n)
    (hg : g.ClocksIn fun i => i ∈ d.clocks.map (·.2)) : g.InDim n := by
  refine hg.mono fun i hi => ?_
  obtain ⟨p, hp, rfl⟩ := List.mem_map.1 hi
  exact hd p hp

theorem invZone_spec {c : Component} {l : Location} {t : LocTree F} {z : F}
    (ht : LocTree.simple c.decls l = .ok t) (h : invZone F c l = .ok z) : z = t.invOrUniv := by
  obtain ⟨inv, rfl, h1, h2⟩ := simple_spec ht
  unfold invZone at h
  cases hi : l.invariant with
  | none => rw [hi] at h; cases h; rw [h1 hi]; rfl
  | some i =>
    rw [hi] at h
    obtain ⟨z', hz', rfl⟩ := h2 i hi
    have := orPanic_ok h
    rw [hz'] at this
    cases this; rfl

theorem foldlM_compile {d : Decls} : ∀ {us : List Update} {cus : List CUpdate} {z z' : F},
    us.mapM (CUpdate.compile d) = .ok cus →
    us.foldlM (fun z u => do
      let cu ← CUpdate.compile d u
      .ok (cu.applyAsFree (cu.applyAsGuard z))) z = .ok z' →
    z' = cus.foldl (fun z cu => cu.applyAsFree (cu.applyAsGuard z)) z := by
  intro us
  induction us with
  | nil => intro cus z z' h1 h2; rw [List.mapM_nil] at h1; cases h1; cases h2; rfl
  | cons u us ih =>
    intro cus z z' h1 h2
    rw [List.mapM_cons] at h1
    obtain ⟨cu, hcu, h1⟩ := bind_ok h1
    obtain ⟨cus', h4, h3⟩ := bind_ok h1
    cases h3
    rw [List.foldlM_cons, hcu] at h2
    rw [List.foldl_cons]
    exact ih h4 h2

theorem den_preimage {us : List CUpdate} {z : F} (hu : UpdatesOk us (dim F)) :
    den (us.foldl (fun z cu => cu.applyAsFree (cu.applyAsGuard z)) z) =
      {v | Valid (dim F) v ∧ runUpdates us.reverse v ∈ den z} := by
  induction us generalizing z with
  | nil =>
    ext v; simp only [List.foldl_nil, List.reverse_nil, runUpdates, Set.mem_ofPred_eq]
    exact ⟨fun h => ⟨den_valid h, h⟩, fun h => h.2⟩
  | cons u us ih =>
    obtain ⟨⟨h1, h2, h3⟩, hu⟩ := hu.cons
    rw [List.foldl_cons, ih hu]
    ext v
    simp only [Set.mem_ofPred_eq]
    refine and_congr_right fun hv => ?_
    rw [List.reverse_cons, runUpdates_append]
    simp only [CUpdate.applyAsFree, CUpdate.applyAsGuard, den_free _ _ h1 h2, den_constrainEq _ _ _ h1 h2,
      Set.mem_ofPred_eq, runUpdates]
    have hv' : Valid (dim F) (runUpdates us.reverse v) :=
      runUpdates_valid (fun u hu' => hu u (List.mem_reverse.1 hu')) hv
    generalize runUpdates us.reverse v = w at hv'
    constructor
    · rintro ⟨w', ⟨hw', he⟩, x, _, rfl⟩
      have : assign (assign w' u.clock x) u.clock (u.value : ℝ) = w' := by
        funext i
        by_cases hi : i = u.clock
        · subst hi; simp [he]
        · rw [assign_other _ _ hi, assign_other _ _ hi]
      rw [this]; exact hw'
    · intro hw
      refine ⟨_, ⟨hw, by simp⟩, w u.clock, hv'.2.1 _, ?_⟩
      funext i
      by_cases hi : i = u.clock
      · subst hi; simp
      · rw [assign_other _ _ hi, assign_other _ _ hi]

theorem runUpdates_reverse {us : List CUpdate} (hc : NoConflict us) (v : Val) :
    runUpdates us.reverse v = runUpdates us v := by
  have hc' : NoConflict us.reverse := fun a ha b hb =>
    hc a (List.mem_reverse.1 ha) b (List.mem_reverse.1 hb)
  funext i
  by_cases h : ∃ u ∈ us, u.clock = i
  · obtain ⟨u, hu, rfl⟩ := h
    rw [runUpdates_assigned hc hu, runUpdates_assigned hc' (List.mem_reverse.2 hu)]
  · push Not at h
    rw [runUpdates_untouched h, runUpdates_untouched fun u hu => h u (List.mem_reverse.1 hu)]

/-- No edge assigns two different values to one clock. -/
def Component.UpdatesAgree (c : Component) : Prop :=
  ∀ e ∈ c.edges, ∀ us, e.update = some us → ∀ u ∈ us, ∀ u' ∈ us,
    c.decls.clockIndex u.var = c.decls.clockIndex u'.var → u.expr = u'.expr

theorem fromEdge_updates {c : Component} (hc : c.Ok (dim F)) {e : Edge} (he : e ∈ c.edges) {t : Transition F}
    (h : Transition.fromEdge c e = .ok t) :
    UpdatesOk t.updates (dim F) ∧ (c.UpdatesAgree → NoConflict t.updates) := by
  obtain ⟨_, _, hu1, hu2, _, _⟩ := fromEdge_spec h
  cases hu : e.update with
  | none => rw [hu1 hu]; exact ⟨fun u hu => (by cases hu), fun _ u hu => (by cases hu)⟩
  | some us =>
    have key := compileUpdates_spec (hu2 us hu)
    refine ⟨fun cu hcu => ?_, fun ha cu hcu cu' hcu' hk => ?_⟩
    · obtain ⟨u, hum, hue, huc⟩ := key cu hcu
      have := hc.decls _ (lookup_mem huc)
      exact ⟨this.1, this.2, hc.updates e he us hu u hum _ hue⟩
    · obtain ⟨u, hum, hue, huc⟩ := key cu hcu
      obtain ⟨u', hum', hue', huc'⟩ := key cu' hcu'
      have := ha e he us hu u hum u' hum' (by rw [huc, huc', hk])
      rw [hue, hue'] at this
      simpa using this

/-- The zone computed for an edge: where the edge can be taken. -/
theorem edgeZone_spec {c : Component} (hc : c.Ok (dim F)) (ha : c.UpdatesAgree) {e : Edge} (he : e ∈ c.edges)
    {t : Transition F} (ht : Transition.fromEdge c e = .ok t) {z : F} (hz : edgeZone F c e = .ok z) :
    den z = {v | Valid (dim F) v ∧ CanTake t v} := by
  obtain ⟨hok, hno⟩ := fromEdge_updates hc he ht
  obtain ⟨⟨l, hl, hs⟩, _, hu1, hu2, hg1, hg2⟩ := fromEdge_spec ht
  unfold edgeZone at hz
  obtain ⟨l', h1, hz⟩ := bind_ok hz
  obtain ⟨z0, h2, hz⟩ := bind_ok hz
  obtain ⟨z1, h3, hz⟩ := bind_ok hz
  have : l' = l := by
    unfold Component.locationByName at h1
    rw [hl] at h1; cases h1; rfl
  subst this
  have h0 := invZone_spec hs h2
  have hz1 : z1 = t.updates.foldl (fun z cu => cu.applyAsFree (cu.applyAsGuard z)) z0 := by
    cases hu : e.update with
    | none => rw [hu] at h3; cases h3; rw [hu1 hu]; rfl
    | some us => rw [hu] at h3; exact foldlM_compile (hu2 us hu) h3
  have hd1 : den z1 = {v | Valid (dim F) v ∧ runUpdates t.updates v ∈ InvSet t.target} := by
    rw [hz1, den_preimage hok]
    ext v
    simp only [Set.mem_ofPred_eq]
    refine and_congr_right fun hv => ?_
    rw [runUpdates_reverse (hno ha), h0, mem_invOrUniv]
    exact ⟨fun h => h.2, fun h => ⟨runUpdates_valid hok hv, h⟩⟩
  have key : den z = {v | v ∈ den z1 ∧ v ∈ den t.guard} := by
    unfold Edge.applyGuard at hz
    cases hg : e.guard with
    | none =>
      rw [hg] at hz; cases hz
      rw [hg1 hg, den_univ]; ext v
      exact ⟨fun h => ⟨h, den_valid h⟩, fun h => h.1⟩
    | some g =>
      rw [hg] at hz
      have hz := orPanic_ok hz
      have hgd := BoolE.InDim.of_clocks hc.decls (hc.guards e he g hg)
      rw [apply_codeSet _ hc.decls g _ _ hgd hz, apply_codeSet _ hc.decls g _ _ hgd (hg2 g hg), den_univ]
      ext v
      exact ⟨fun h => ⟨h.1, den_valid h.1, h.2⟩, fun h => ⟨h.1, h.2.2⟩⟩
  rw [key, hd1]
  ext v
  simp only [Set.mem_ofPred_eq, CanTake]
  tauto

/-! ## The added edges -/

/-- The dimension is that of the component alone, so every clock has a name. -/
theorem clocks_cover {d : Decls} {n : Nat} (hd : d.InDim n) (hi : (d.clocks.map (·.2)).Nodup)
    (hn : n = d.clocks.length + 1) {i : Nat} (h0 : i ≠ 0) (h1 : i < n) : i ∈ d.clocks.map (·.2) := by
  by_contra hni
  have hsub : (i :: d.clocks.map (·.2)) ⊆ (List.range n).tail := by
    have hr : ∀ k, 0 < k → k < n → k ∈ (List.range n).tail := by
      intro k hk0 hk1
      obtain ⟨m, rfl⟩ : ∃ m, n = m + 1 := ⟨n - 1, by omega⟩
      rw [List.range_succ_eq_map]
      simp only [List.tail_cons, List.mem_map, List.mem_range]
      exact ⟨k - 1, by omega, by omega⟩
    intro k hk
    rcases List.mem_cons.1 hk with rfl | hk
    · exact hr _ (by omega) h1
    · obtain ⟨p, hp, rfl⟩ := List.mem_map.1 hk
      have := hd p hp
      exact hr _ this.1 this.2
  have := (List.nodup_cons.2 ⟨hni, hi⟩).subperm hsub |>.length_le
  simp only [List.length_cons, List.length_map, List.length_tail, List.length_range] at this
  omega

theorem minimal_named {d : Decls} (hd : d.InDim (dim F)) (hi : (d.clocks.map (·.2)).Nodup)
    (hn : dim F = d.clocks.length + 1) (z : F) : ∀ c ∈ minimal z, ∀ k ∈ c, k.Named d.clocks := by
  intro c hc k hk
  obtain ⟨h1, h2⟩ := minimal_inDim z c hc k hk
  exact ⟨minimal_proper z c hc k hk, fun h => clocks_cover hd hi hn h h1, fun h => clocks_cover hd hi hn h h2⟩

/-- The input edges on an action that leave a location, as the code selects them. -/
def inputEdges (c : Component) (l : Location) (a : String) : List Edge :=
  c.edges.filter fun e => decide (e.sync = .input) && decide (e.source = l.id) &&
    (decide (e.action = a) || decide (e.action = "*"))

theorem covered_spec {c : Component} (hc : c.Ok (dim F)) (ha : c.UpdatesAgree) {inv : F}
    : ∀ {es : List Edge} {z0 z : F}, (∀ e ∈ es, e ∈ c.edges ∧ ∃ t : Transition F, Transition.fromEdge c e = .ok t) →
    es.foldlM (fun fed e => do .ok (append fed (inter (← edgeZone F c e) inv))) z0 = .ok z →
    ∀ v, v ∈ den z ↔ v ∈ den z0 ∨ v ∈ den inv ∧ ∃ e ∈ es, ∃ t : Transition F, Transition.fromEdge c e = .ok t ∧ CanTake t v := by
  intro es
  induction es with
  | nil => intro z0 z _ h v; cases h; simp
  | cons e es ih =>
    intro z0 z hes h v
    rw [List.foldlM_cons] at h
    obtain ⟨z1, h1, h⟩ := bind_ok h
    obtain ⟨ze, h2, h1⟩ := bind_ok h1
    cases h1
    rw [ih (fun e he => hes e (by simp [he])) h v]
    obtain ⟨he, t, ht⟩ := hes e (by simp)
    rw [den_append, den_inter, edgeZone_spec hc ha he ht h2]
    simp only [Set.mem_union, Set.mem_inter_iff, Set.mem_ofPred_eq, List.mem_cons, exists_eq_or_imp]
    constructor
    · rintro ((h | ⟨⟨_, h1⟩, h2⟩) | ⟨h1, h2⟩)
      · exact .inl h
      · exact .inr ⟨h2, .inl ⟨t, ht, h1⟩⟩
      · exact .inr ⟨h1, .inr h2⟩
    · rintro (h | ⟨h1, ⟨t', ht', h2⟩ | h2⟩)
      · exact .inl (.inl h)
      · rw [ht] at ht'; cases ht'
        exact .inl (.inr ⟨⟨den_valid h1, h2⟩, h1⟩)
      · exact .inr ⟨h1, h2⟩

/-- The edge added for a location and an input. -/
theorem missingEdge_spec {c : Component} (hc : c.Ok (dim F)) (ha : c.UpdatesAgree)
    (hg : GoodNaming c.decls.clocks)
    (hix : (c.decls.clocks.map (·.2)).Nodup) (hn : dim F = c.decls.clocks.length + 1)
    (hcomp : ∀ e ∈ c.edges, ∃ t : Transition F, Transition.fromEdge c e = .ok t)
    {l : Location} {inv : F} {a : String} {r : Option Edge} (h : missingEdge F c l inv a = .ok r) :
    (r = none → ∀ v ∈ den inv, ∃ e ∈ inputEdges c l a, ∃ t : Transition F, Transition.fromEdge c e = .ok t ∧ CanTake t v) ∧
    ∀ e', r = some e' → e'.source = l.id ∧ e'.target = l.id ∧ e'.sync = .input ∧ e'.action = a ∧
      e'.update = none ∧ e'.id = "input_" ++ l.id ++ "_" ++ a ∧
      (∀ g, e'.guard = some g → ∀ n, g.InDim n) ∧
      ∀ t' : Transition F, Transition.fromEdge c e' = .ok t' → ∀ v, v ∈ den t'.guard ↔ v ∈ den inv ∧
        ¬ ∃ e ∈ inputEdges c l a, ∃ t : Transition F, Transition.fromEdge c e = .ok t ∧ CanTake t v := by
  unfold missingEdge at h
  obtain ⟨cov, h1, h⟩ := bind_ok h
  have hcov := covered_spec hc ha (fun e he => ⟨(List.mem_filter.1 he).1, hcomp e (List.mem_filter.1 he).1⟩) h1
  have hrest : ∀ v, v ∈ den (subtraction inv cov) ↔ v ∈ den inv ∧
      ¬ ∃ e ∈ inputEdges c l a, ∃ t : Transition F, Transition.fromEdge c e = .ok t ∧ CanTake t v := by
    intro v
    rw [den_subtraction, Set.mem_ofPred_eq, hcov, den_empty]
    refine and_congr_right fun hv => not_congr ?_
    simp only [Set.mem_empty_iff_false, false_or, hv, true_and]
    rfl
  dsimp only at h
  split at h
  · rename_i hemp
    cases h
    refine ⟨fun _ v hv => ?_, by rintro _ ⟨⟩⟩
    by_contra hno
    have : v ∈ den (subtraction inv cov) := (hrest v).2 ⟨hv, hno⟩
    rw [ZoneLib.isEmpty_iff] at hemp
    rw [hemp] at this
    exact this
  · obtain ⟨guard, h2, h⟩ := bind_ok h
    cases h
    refine ⟨by rintro ⟨⟩, ?_⟩
    rintro e' ⟨⟩
    have hnamed := minimal_named hc.decls hix hn (subtraction inv cov)
    have hmeans := (fromDisjunction_spec hg c.decls.ints _ hnamed).of_ok h2
    refine ⟨rfl, rfl, rfl, rfl, rfl, rfl, fun g hgg => (hmeans.1 g hgg).2, ?_⟩
    intro t' ht' v
    rw [← hrest, ← den_minimal (subtraction inv cov)]
    obtain ⟨_, _, _, _, hg1, hg2⟩ := fromEdge_spec ht'
    simp only at hg1 hg2
    have hd : c.decls = ⟨c.decls.ints, c.decls.clocks⟩ := rfl
    cases guard with
    | none =>
      rw [hg1 rfl, den_univ]
      simp only [Set.mem_ofPred_eq]
      exact ⟨fun hv => ⟨hv, (hmeans.2 v hv.1).1 trivial⟩, fun h => h.1⟩
    | some g =>
      obtain ⟨hgood, hin⟩ := hmeans.1 g rfl
      have hz := OkOrOvf.of_ok (C01_guard_exact_partial c.decls hc.decls g (hin _) hgood univ) (hg2 g rfl)
      rw [hz, den_univ]
      simp only [Set.mem_ofPred_eq]
      exact and_congr_right fun hv => hmeans.2 v hv.1

/-- What input enabling returns. -/
theorem makeInputEnabled_spec {c c' : Component} {inputs : List String} (h : makeInputEnabled F c inputs = .ok c') :
    ∃ new, c' = { c with edges := c.edges ++ new } ∧
      (∀ e ∈ new, ∃ l ∈ c.locations, ∃ inv, invZone F c l = .ok inv ∧ ∃ a ∈ inputs,
        missingEdge F c l inv a = .ok (some e)) ∧
      ∀ l ∈ c.locations, ∃ inv, invZone F c l = .ok inv ∧ ∀ a ∈ inputs, ∃ r, missingEdge F c l inv a = .ok r ∧
        ∀ e, r = some e → e ∈ new := by
  unfold makeInputEnabled at h
  obtain ⟨new, h1, h⟩ := bind_ok h
  cases h
  have h1 := mapM_ok.1 h1
  refine ⟨_, rfl, fun e he => ?_, fun l hl => ?_⟩
  · obtain ⟨es, hes, he⟩ := List.mem_flatten.1 he
    obtain ⟨l, hl, h⟩ := forall2_mem_right h1 es hes
    obtain ⟨inv, h2, h⟩ := bind_ok h
    obtain ⟨rs, h3, h⟩ := bind_ok h
    cases h
    obtain ⟨r, hr, hre⟩ := List.mem_filterMap.1 he
    obtain ⟨a, ha, h4⟩ := forall2_mem_right (mapM_ok.1 h3) r hr
    rw [id] at hre
    subst hre
    exact ⟨l, hl, inv, h2, a, ha, h4⟩
  · obtain ⟨es, hes, h⟩ := forall2_mem_left h1 l hl
    obtain ⟨inv, h2, h⟩ := bind_ok h
    obtain ⟨rs, h3, h⟩ := bind_ok h
    cases h
    refine ⟨inv, h2, fun a ha => ?_⟩
    obtain ⟨r, hr, h4⟩ := forall2_mem_left (mapM_ok.1 h3) a ha
    refine ⟨r, h4, ?_⟩
    rintro e rfl
    exact List.mem_flatten.2 ⟨_, hes, List.mem_filterMap.2 ⟨_, hr, rfl⟩⟩

end Reveaal
