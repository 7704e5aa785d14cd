import Verif.Props.C31

/-!
# C30 A saved component contains every reachable location and exactly the moves between them
-/

namespace Reveaal
open ZoneLib
variable {F : Type} [ZoneLib F]

/-! ## One location, one transition -/

theorem saveLocation_shows {naming : List (String × Nat)} (hg : GoodNaming naming) {l : LocTree F} {loc : Location}
    (h : saveLocation naming l = .ok loc) : ShowsLoc ⟨[], naming⟩ l loc := by
  obtain ⟨h1, h2, h3, h4⟩ := saveLocation_spec h
  refine ⟨h1, h2, fun v hv => ?_⟩
  unfold InvSet
  cases hi : l.inv with
  | none => rw [h3 hi]; simp [HoldsOpt]
  | some z =>
    rw [(fromDisjunction_means hg [] (h4 z hi)).2 v hv.1]
    simp only [Set.mem_ofPred_eq, Option.some.injEq, forall_eq']
    rw [← den_minimal]
    exact ⟨fun h => ⟨hv, h⟩, fun h => h.2⟩

theorem saveEdge_shows {naming : List (String × Nat)} (hg : GoodNaming naming) {l : LocTree F} {sync : SyncType}
    {a : String} {t : Transition F} {e : Edge} (h : saveEdge naming l sync a t = .ok (some e)) :
    ShowsEdge ⟨[], naming⟩ l t e ∧ e.sync = sync ∧ e.action = a := by
  obtain ⟨h1, h2, h3, h4, _, h5, _, h6, _⟩ := (saveEdge_spec h).2 e rfl
  refine ⟨⟨h1, h2, fun v hv => ?_, ?_⟩, h3, h4⟩
  · rw [(fromDisjunction_means hg [] h5).2 v hv.1, ← den_minimal]
    exact ⟨fun h => ⟨hv, h⟩, fun h => h.2⟩
  · refine (mapM_ok.1 h6).imp fun u w huw => ?_
    unfold CUpdate.asUpdate at huw
    cases hl : (invertNaming naming).lookup u.clock with
    | none => rw [hl] at huw; cases huw
    | some n =>
      rw [hl] at huw
      cases huw
      exact ⟨lookup_mem (invertNaming_some hg hl), rfl⟩

/-- Whether a transition is saved: its guard is not printed as `false`. -/
def kept (naming : List (String × Nat)) (t : Transition F) : Bool :=
  match fromDisjunction (minimal t.guard) naming with
  | .ok (some (.bool false)) => false
  | _ => true

theorem kept_false {naming : List (String × Nat)} (hg : GoodNaming naming) {t : Transition F}
    (h : kept naming t = false) : den t.guard = ∅ := by
  unfold kept at h
  split at h
  · next hf =>
    rw [Set.eq_empty_iff_forall_notMem]
    intro v hv
    rw [← den_minimal] at hv
    have := (fromDisjunction_means hg [] hf).2 v hv.1.1
    exact absurd (this.2 hv.2) (by simp [HoldsOpt, Holds])
  · cases h

/-- The edges saved for one list of transitions. -/
theorem saveGroup {naming : List (String × Nat)} (hg : GoodNaming naming) {l : LocTree F} {sync : SyncType}
    {a : String} {trans : List (Transition F)} {os : List (Option Edge)}
    (h : trans.mapM (saveEdge naming l sync a) = .ok os) :
    List.Forall₂ (fun t e => ShowsEdge ⟨[], naming⟩ l t e ∧ e.sync = sync ∧ e.action = a)
      (trans.filter (kept naming)) (os.filterMap id) := by
  replace h := mapM_ok.1 h
  induction h with
  | nil => exact .nil
  | @cons t o ts os ho _ ih =>
    cases o with
    | none =>
      have := (saveEdge_spec ho).1 rfl
      have hk : kept naming t = false := by unfold kept; rw [this]
      rw [List.filter_cons_of_neg (by simp [hk])]
      exact ih
    | some e =>
      obtain ⟨_, _, _, _, _, h5, h6, _⟩ := (saveEdge_spec ho).2 e rfl
      have hk : kept naming t = true := by
        unfold kept
        rw [h5]
        split
        · next he => exact absurd (Except.ok.inj he) h6
        · rfl
      rw [List.filter_cons_of_pos hk]
      exact .cons (saveEdge_shows hg ho) ih

/-! ## Picking one group out of many -/

theorem pick_group {α β : Type} {R : α → List β → Prop} {ls : List α} {gs : List (List β)} (h : List.Forall₂ R ls gs)
    (hn : ls.Nodup) {l : α} (hl : l ∈ ls) {p : β → Bool} (hp : ∀ l' g, l' ∈ ls → R l' g → l' ≠ l → ∀ e ∈ g, p e = false) :
    ∃ g, R l g ∧ gs.flatten.filter p = g.filter p := by
  have none : ∀ {ls : List α} {gs : List (List β)}, List.Forall₂ R ls gs →
      (∀ l' g, l' ∈ ls → R l' g → ∀ e ∈ g, p e = false) → gs.flatten.filter p = [] := by
    intro ls gs h hp
    induction h with
    | nil => rfl
    | @cons a g ls gs hag _ ih =>
      rw [List.flatten_cons, List.filter_append, ih fun l' g' hl' => hp l' g' (.tail _ hl'), List.append_nil,
        List.filter_eq_nil_iff]
      intro e he
      rw [hp a g (.head _) hag e he]; exact Bool.false_ne_true
  induction h with
  | nil => cases hl
  | @cons a g ls gs hag hf ih =>
    rw [List.nodup_cons] at hn
    rw [List.flatten_cons, List.filter_append]
    by_cases hal : a = l
    · subst hal
      refine ⟨g, hag, ?_⟩
      rw [none hf fun l' g' hl' hr => hp l' g' (.tail _ hl') hr (by rintro rfl; exact hn.1 hl'), List.append_nil]
    · obtain ⟨g', hg', he⟩ := ih hn.2 (by rcases List.mem_cons.1 hl with h | h; exact absurd h.symm hal; exact h)
        fun l' g' hl' => hp l' g' (.tail _ hl')
      refine ⟨g', hg', ?_⟩
      have : g.filter p = [] := by
        rw [List.filter_eq_nil_iff]
        intro e he
        rw [hp a g (.head _) hag hal e he]; exact Bool.false_ne_true
      rw [this, he, List.nil_append]

theorem forall2_filter {α β : Type} {S : α → β → Prop} {l : List α} {l' : List β} {p : α → Bool} {q : β → Bool}
    (h : List.Forall₂ S l l') (hpq : ∀ a b, S a b → p a = q b) : List.Forall₂ S (l.filter p) (l'.filter q) := by
  induction h with
  | nil => exact .nil
  | @cons a b l l' hab _ ih =>
    cases hp : p a with
    | false => rw [List.filter_cons_of_neg (by simp [hp]), List.filter_cons_of_neg (by simp [← hpq a b hab, hp])]; exact ih
    | true => rw [List.filter_cons_of_pos hp, List.filter_cons_of_pos (by rw [← hpq a b hab, hp])]; exact .cons hab ih

theorem forall2_comp {α β γ : Type} {R : α → β → Prop} {S : β → γ → Prop} {T : α → γ → Prop} {l : List α} {m : List β}
    {n : List γ} (h1 : List.Forall₂ R l m) (h2 : List.Forall₂ S m n) (h : ∀ a b c, R a b → S b c → T a c) :
    List.Forall₂ T l n := by
  induction h1 generalizing n with
  | nil => cases h2; exact .nil
  | cons hab _ ih => cases h2 with | cons hbc hf => exact .cons (h _ _ _ hab hbc) (ih hf)

/-- Edges that differ in their identifiers only. -/
def SameEdge (a b : Edge) : Prop := b = { a with id := b.id }

theorem remake_same (es : List Edge) (k : Nat) :
    List.Forall₂ SameEdge es (es.mapIdx fun i e => { e with id := "E" ++ toString (i + k) }) := by
  induction es generalizing k with
  | nil => exact .nil
  | cons e es ih =>
    rw [List.mapIdx_cons]
    refine .cons rfl ?_
    have := ih (k + 1)
    simp only [Nat.add_assoc, Nat.add_comm 1 k] at this ⊢
    exact this

/-- The edges with one source, direction and action. -/
def Component.edgesFor (c : Component) (src : String) (sync : SyncType) (a : String) : List Edge :=
  c.edges.filter fun e => decide (e.source = src) && decide (e.sync = sync) && decide (e.action = a)

/-- The edges of one location. -/
theorem saveEdges_group {s : Sys F} {naming : List (String × Nat)} (hg : GoodNaming naming) {ord : ActionOrder F}
    (ho : ord.For s) (hi : s.inputs.Nodup) (hu : s.outputs.Nodup) {l : LocTree F} {es : List Edge}
    (h : saveEdges s.ts naming ord l = .ok es) {sync : SyncType} {a : String} (ha : a ∈ s.actionsOf sync) :
    ∃ trans, s.next l a = .ok trans ∧
      List.Forall₂ (ShowsEdge ⟨[], naming⟩ l) (trans.filter (kept naming))
        (es.filter fun e => decide (e.source = l.id.display) && decide (e.sync = sync) && decide (e.action = a)) := by
  -- one direction
  have dir : ∀ (sy : SyncType) (acts : List String) (g : List Edge), saveEdgesOf s.ts naming l sy acts = .ok g →
      acts.Nodup → (∀ e ∈ g, e.sync = sy) ∧ (a ∈ acts → ∃ trans, s.next l a = .ok trans ∧
        List.Forall₂ (ShowsEdge ⟨[], naming⟩ l) (trans.filter (kept naming))
          (g.filter fun e => decide (e.source = l.id.display) && decide (e.sync = sy) && decide (e.action = a))) := by
    intro sy acts g hsave hnd
    constructor
    · intro e he
      obtain ⟨b, _, _, _, t, _, hsv⟩ := (saveEdgesOf_mem hsave).2 e he
      exact (saveEdge_shows hg hsv).2.1
    · intro haa
      unfold saveEdgesOf at hsave
      obtain ⟨gs, h1, hsave⟩ := bind_ok hsave
      cases hsave
      obtain ⟨g, hga, hfil⟩ := pick_group (mapM_ok.1 h1) hnd haa
        (p := fun e => decide (e.source = l.id.display) && decide (e.sync = sy) && decide (e.action = a)) (by
          intro b g _ hb hne e he
          obtain ⟨trans, h2, hb⟩ := bind_ok hb
          obtain ⟨os, h3, hb⟩ := bind_ok hb
          cases hb
          obtain ⟨t, _, ht⟩ := forall2_mem_right (saveGroup hg h3) e he
          simp [ht.2.2, hne])
      obtain ⟨trans, h2, hga⟩ := bind_ok hga
      obtain ⟨os, h3, hga⟩ := bind_ok hga
      cases hga
      refine ⟨trans, h2, ?_⟩
      rw [hfil]
      have hgrp := saveGroup hg h3
      have hall : ∀ e ∈ os.filterMap id,
          (decide (e.source = l.id.display) && decide (e.sync = sy) && decide (e.action = a)) = true := by
        intro e he
        obtain ⟨t, _, ht⟩ := forall2_mem_right hgrp e he
        simp [ht.1.source, ht.2.1, ht.2.2]
      rw [List.filter_eq_self.2 hall]
      exact hgrp.imp fun _ _ h => h.1
  unfold saveEdges at h
  obtain ⟨gi, h1, h⟩ := bind_ok h
  obtain ⟨go, h2, h⟩ := bind_ok h
  cases h
  obtain ⟨i1, i2⟩ := dir _ _ _ h1 ((ho l).1.nodup_iff.2 hi)
  obtain ⟨o1, o2⟩ := dir _ _ _ h2 ((ho l).2.nodup_iff.2 hu)
  cases sync with
  | input =>
    obtain ⟨trans, h3, h4⟩ := i2 ((ho l).1.mem_iff.2 ha)
    refine ⟨trans, h3, ?_⟩
    have hnil : go.filter (fun e => decide (e.source = l.id.display) && decide (e.sync = .input) &&
        decide (e.action = a)) = [] := by
      rw [List.filter_eq_nil_iff]; intro e he; simp [o1 e he]
    rw [List.filter_append, hnil, List.append_nil]
    exact h4
  | output =>
    obtain ⟨trans, h3, h4⟩ := o2 ((ho l).2.mem_iff.2 ha)
    refine ⟨trans, h3, ?_⟩
    have hnil : gi.filter (fun e => decide (e.source = l.id.display) && decide (e.sync = .output) &&
        decide (e.action = a)) = [] := by
      rw [List.filter_eq_nil_iff]; intro e he; simp [i1 e he]
    rw [List.filter_append, hnil, List.nil_append]
    exact h4

theorem getComponent_spec {s : Sys F} {ord : ActionOrder F} {fuel : Nat} {name : String} {c : Component}
    (h : getComponent s ord fuel name = .ok c) : ∃ trees c0 ess,
      collectLocations s.ts ord (.reachable fuel) = .ok trees ∧
      combineComponents s ord (.reachable fuel) = .ok c0 ∧ SavedAs s ord trees c0 ∧
      c = ({ c0 with name := name } : Component).remakeEdgeIds ∧
      List.Forall₂ (fun l es => saveEdges s.ts (clockMap s.decls) ord l = .ok es) trees ess ∧
      List.Forall₂ SameEdge ess.flatten c.edges := by
  unfold getComponent at h
  obtain ⟨c0, h1, h⟩ := bind_ok h
  cases h
  obtain ⟨trees, h2, h3⟩ := combineComponents_spec h1
  have h1' := h1
  unfold combineComponents at h1
  obtain ⟨trees', h4, h1⟩ := bind_ok h1
  rw [h2] at h4; cases h4
  obtain ⟨ess, h5, h1⟩ := bind_ok h1
  obtain ⟨locs, h6, h1⟩ := bind_ok h1
  cases h1
  exact ⟨trees, _, ess, h2, h1', h3, rfl, mapM_ok.1 h5, remake_same ess.flatten 0⟩

/-- The locations collected from the initial location are the ones reachable through transitions. -/
theorem collect_linked {s : Sys F} (hs : s.Accepted) {ord : ActionOrder F} (ho : ord.For s) {fuel : Nat}
    {trees : List (LocTree F)} (h : collectLocations s.ts ord (.reachable fuel) = .ok trees) {l0 : LocTree F}
    (hl0 : s.initialLoc = .ok (some l0)) : trees.Nodup ∧ trees.head? = some l0 ∧
      (∀ l, l ∈ trees ↔ s.Linked l) ∧ ∀ l ∈ trees, s.ClosedAt l trees := by
  unfold collectLocations at h
  have hl0' : s.ts.initialLoc = .ok (some l0) := hl0
  dsimp only at h
  rw [hl0', ok_bind] at h
  dsimp only at h
  obtain ⟨h1, h2, h3⟩ := collectReachable_spec hs ho fuel l0 [l0] trees
    (fun x hx => by rw [List.mem_singleton.1 hx]; exact .init hl0) (.init hl0) h
  have hclosed : ∀ l ∈ trees, s.ClosedAt l trees := by
    intro l hl
    by_cases h' : l ∈ [l0]
    · rw [List.mem_singleton.1 h']; exact h2
    · exact h1.closed l hl h'
  obtain ⟨rest, hrest⟩ := h1.pre
  refine ⟨h1.nodup (by simp), by rw [← hrest]; rfl, fun l => ⟨h3 l, fun hl => ?_⟩, hclosed⟩
  induction hl with
  | init h' => rw [hl0'] at h'; cases h'; rw [← hrest]; exact .head _
  | step _ ha hn ht ih => exact hclosed _ ih _ _ ha hn _ ht

/-- **C30**, for single components and systems whose location names contain none of the characters `( ) | & \ [ ]`: the saved component has
one location for each location of the system reachable through any transitions, no two with the same name, and for
each of them, each direction and each action, exactly the transitions of the system whose guard is not `false`, in
their order; a transition that is left out has an empty guard.  There are no other edges.
Missing: other location names, see `C30_violated_names`. -/
theorem C30_saved_partial {s : Sys F} (hs : s.Accepted) (hn : s.Readable) (hd : s.NamesDistinct)
    (hi : s.inputs.Nodup) (hu : s.outputs.Nodup) {ord : ActionOrder F} (ho : ord.For s) {fuel : Nat} {name : String}
    {c : Component} (h : getComponent s ord fuel name = .ok c) {l0 : LocTree F}
    (hl0 : s.initialLoc = .ok (some l0)) :
    ∃ trees : List (LocTree F), trees.Nodup ∧ trees.head? = some l0 ∧ (∀ l, l ∈ trees ↔ s.Linked l) ∧
      List.Forall₂ (ShowsLoc c.decls) trees c.locations ∧ (c.locations.map (·.id)).Nodup ∧
      (∀ e ∈ c.edges, (∃ l ∈ trees, e.source = l.id.display) ∧ e.action ∈ s.actionsOf e.sync) ∧
      ∀ l ∈ trees, ∀ sync, ∀ a ∈ s.actionsOf sync, ∃ (trans : List (Transition F)) (p : Transition F → Bool),
        s.next l a = .ok trans ∧ (∀ t ∈ trans, p t = false → den t.guard = ∅) ∧
        List.Forall₂ (ShowsEdge c.decls l) (trans.filter p) (c.edgesFor l.id.display sync a) := by
  obtain ⟨trees, c0, ess, h1, _, h2, rfl, h3, h4⟩ := getComponent_spec h
  obtain ⟨t1, t2, t3, t4⟩ := collect_linked hs ho h1 hl0
  obtain ⟨hg, hdim⟩ := hs.naming hd
  have hdec : c0.decls = ⟨[], clockMap s.decls⟩ := h2.decls
  have hloc : ∀ l ∈ trees, s.IsLoc l := fun l hl => ((t3 l).1 hl).isLoc hs
  refine ⟨trees, t1, t2, t3, ?_, ?_, ?_, ?_⟩
  · show List.Forall₂ (ShowsLoc c0.decls) trees c0.locations
    rw [hdec]
    exact h2.locs.imp fun _ _ h => saveLocation_shows hg h
  · show (c0.locations.map (·.id)).Nodup
    have : c0.locations.map (·.id) = trees.map fun l => l.id.display := by
      have key := h2.locs
      clear h2 h4 h3 h1 t1 t2 t3 t4 hloc
      generalize c0.locations = locs at key
      induction key with
      | nil => rfl
      | cons hab _ ih => rw [List.map_cons, List.map_cons, ih, (saveLocation_spec hab).1]
    rw [this]
    exact t1.map_on fun a ha b hb he => hs.display_inj hn (hloc a ha) (hloc b hb) he
  · intro e he
    obtain ⟨e0, he0, hse⟩ := forall2_mem_right h4 e he
    obtain ⟨es, hes, hee⟩ := List.mem_flatten.1 he0
    obtain ⟨l, hl, hsv⟩ := forall2_mem_right h3 es hes
    rw [hse]
    show (∃ l ∈ trees, e0.source = _) ∧ e0.action ∈ s.actionsOf e0.sync
    unfold saveEdges at hsv
    obtain ⟨gi, q1, hsv⟩ := bind_ok hsv
    obtain ⟨go, q2, hsv⟩ := bind_ok hsv
    cases hsv
    rcases List.mem_append.1 hee with hee | hee
    · obtain ⟨a, ha, _, _, t, _, hst⟩ := (saveEdgesOf_mem q1).2 e0 hee
      obtain ⟨r1, r2, r3⟩ := saveEdge_shows hg hst
      exact ⟨⟨l, hl, r1.source⟩, by rw [r2, r3]; exact (ho l).1.mem_iff.1 ha⟩
    · obtain ⟨a, ha, _, _, t, _, hst⟩ := (saveEdgesOf_mem q2).2 e0 hee
      obtain ⟨r1, r2, r3⟩ := saveEdge_shows hg hst
      exact ⟨⟨l, hl, r1.source⟩, by rw [r2, r3]; exact (ho l).2.mem_iff.1 ha⟩
  · intro l hl sync a ha
    obtain ⟨es, hes, hfil⟩ := pick_group h3 t1 hl
      (p := fun e => decide (e.source = l.id.display) && decide (e.sync = sync) && decide (e.action = a)) (by
        intro l' g hl' hg' hne e he
        obtain ⟨sy, b, _, _, _, t, _, hsv⟩ := (saveEdges_mem hg').2 e he
        have := (saveEdge_shows hg hsv).1.source
        have hne' : e.source ≠ l.id.display := fun heq =>
          hne (hs.display_inj hn (hloc l' hl') (hloc l hl) (by rw [← this, heq]))
        simp [hne'])
    obtain ⟨trans, hnx, hf⟩ := saveEdges_group hg ho hi hu hes ha
    refine ⟨trans, kept (clockMap s.decls), hnx, fun t _ => kept_false hg, ?_⟩
    rw [← hfil] at hf
    have h5 := forall2_filter h4
      (p := fun e => decide (e.source = l.id.display) && decide (e.sync = sync) && decide (e.action = a))
      (q := fun e => decide (e.source = l.id.display) && decide (e.sync = sync) && decide (e.action = a))
      (by intro a b hab; rw [hab])
    refine forall2_comp hf h5 fun t e e' hte hee => ?_
    show ShowsEdge c0.decls l t e'
    rw [hdec, hee]
    exact ⟨hte.source, hte.target, hte.guard, hte.updates⟩

/-- A system without an initial location is saved as a component without locations and edges. -/
theorem C30_no_initial {s : Sys F} {ord : ActionOrder F} {fuel : Nat} {name : String}
    (hl0 : s.initialLoc = .ok none) : ∃ c, getComponent s ord fuel name = .ok c ∧ c.locations = [] ∧ c.edges = [] := by
  refine ⟨⟨name, ⟨[], clockMap s.decls⟩, [], []⟩, ?_, rfl, rfl⟩
  have : s.ts.initialLoc = .ok none := hl0
  unfold getComponent combineComponents collectLocations
  rw [this]
  rfl

/-! ## Saving succeeds -/

theorem mapM_ovf {α β : Type} {f : α → Res β} : ∀ (l : List α), (∀ a ∈ l, OkOrOvf (f a) fun _ => True) →
    OkOrOvf (l.mapM f) fun _ => True
  | [], _ => .ok trivial
  | a :: l, h => by
    rw [List.mapM_cons]
    exact (h a (.head _)).bind fun _ _ => (mapM_ovf l fun x hx => h x (.tail _ hx)).bind fun _ _ => .ok trivial

theorem minimal_ovf {naming : List (String × Nat)} (hg : GoodNaming naming)
    (hcov : ∀ i, 0 < i → i < dim F → i ∈ naming.map (·.2)) (z : F) :
    OkOrOvf (fromDisjunction (minimal z) naming) fun _ => True := by
  refine (fromDisjunction_spec hg [] (minimal z) fun c hc k hk => ?_).mono fun _ _ => trivial
  obtain ⟨h1, h2⟩ := minimal_inDim z c hc k hk
  exact ⟨minimal_proper z c hc k hk, fun h => hcov _ (Nat.pos_of_ne_zero h) h1,
    fun h => hcov _ (Nat.pos_of_ne_zero h) h2⟩

theorem asUpdate_total {naming : List (String × Nat)} (hg : GoodNaming naming) {u : CUpdate}
    (h : u.clock ∈ naming.map (·.2)) : ∃ w, CUpdate.asUpdate naming u = .ok w := by
  obtain ⟨n, hn, _⟩ := invertNaming_lookup hg h
  exact ⟨⟨n, .int u.value⟩, by unfold CUpdate.asUpdate; rw [hn]; rfl⟩

theorem combine_ovf {s : Sys F} (hs : s.Accepted) (hd : s.NamesDistinct)
    (hcov : ∀ i, 0 < i → i < dim F → i ∈ (clockMap s.decls).map (·.2)) {ord : ActionOrder F} (ho : ord.For s)
    {strategy : PruningStrategy} {trees : List (LocTree F)} (ht : collectLocations s.ts ord strategy = .ok trees)
    (hloc : ∀ l ∈ trees, s.IsLoc l) : OkOrOvf (combineComponents s ord strategy) fun _ => True := by
  obtain ⟨hg, _⟩ := hs.naming hd
  have edge : ∀ l, s.IsLoc l → ∀ (sync : SyncType) (acts : List String), (∀ a ∈ acts, s.hasAction a = true) →
      OkOrOvf (saveEdgesOf s.ts (clockMap s.decls) l sync acts) fun _ => True := by
    intro l hl sync acts hacts
    unfold saveEdgesOf
    refine (mapM_ovf _ fun a ha => ?_).bind fun _ _ => .ok trivial
    obtain ⟨trans, h1, h2⟩ := hs.good.next l a hl (hacts a ha)
    have h1' : s.ts.next l a = .ok trans := h1
    rw [h1', ok_bind]
    refine (mapM_ovf _ fun t ht => ?_).bind fun _ _ => .ok trivial
    unfold saveEdge Transition.renamedGuard
    refine (minimal_ovf hg hcov t.guard).bind fun g _ => ?_
    split
    · exact .ok trivial
    · have : OkOrOvf (t.renamedUpdates (clockMap s.decls)) fun _ => True := by
        unfold Transition.renamedUpdates
        refine (mapM_ovf _ fun u hu => ?_).bind fun _ _ => .ok trivial
        obtain ⟨w, hw⟩ := asUpdate_total (u := u) hg (by
          have := (h2 t ht).2.upd u hu
          exact hcov _ this.1 this.2.1)
        rw [hw]; exact .ok trivial
      exact this.bind fun _ _ => .ok trivial
  unfold combineComponents
  rw [ht, ok_bind]
  refine (mapM_ovf _ fun l hl => ?_).bind fun _ _ => (mapM_ovf _ fun l hl => ?_).bind fun _ _ => .ok trivial
  · unfold saveEdges
    refine (edge l (hloc l hl) _ _ fun a ha => ?_).bind fun _ _ =>
      (edge l (hloc l hl) _ _ fun a ha => ?_).bind fun _ _ => .ok trivial
    · exact ho.mem.1 (List.mem_append_left _ ha)
    · exact ho.mem.1 (List.mem_append_right _ ha)
  · unfold saveLocation
    cases l.inv with
    | none => exact .ok trivial
    | some z => exact (minimal_ovf hg hcov z).bind fun _ _ => .ok trivial

/-- Saving ends, and fails only by an arithmetic overflow: when every clock of the zones belongs to the system and no
clock name ends in a digit, the executor returns a component as soon as the step bound of the model exceeds the number
of locations. -/
theorem C30_total {s : Sys F} (hs : s.Accepted) (hd : s.NamesDistinct)
    (hdig : ∀ d ∈ s.decls, ∀ p ∈ d.clocks, NoDigitEnd p.1) (hall : ∀ i, 0 < i → i < dim F → i ∈ s.clocks)
    {ord : ActionOrder F} (ho : ord.For s) {locs : List (LocTree F)} (hlocs : s.allLocs = .ok locs) {fuel : Nat}
    (hf : locs.length < fuel + 1) (name : String) :
    (∃ c, getComponent s ord fuel name = .ok c) ∨
      getComponent s ord fuel name = .error (.panic "arithmetic overflow") := by
  have hcov : ∀ i, 0 < i → i < dim F → i ∈ (clockMap s.decls).map (·.2) := by
    intro i h1 h2
    obtain ⟨d, hd', hm⟩ := s.decls_clocks.2 (hall i h1 h2)
    obtain ⟨p, hp, rfl⟩ := List.mem_map.1 hm
    obtain ⟨n, hn⟩ := (C31_names_partial _ hd hdig).every d hd' p.1 p.2 hp
    exact List.mem_map.2 ⟨_, hn, rfl⟩
  obtain ⟨ls, h1, h2⟩ := hs.good.all
  rw [hlocs] at h1; cases h1
  have key : ∃ trees, collectLocations s.ts ord (.reachable fuel) = .ok trees ∧ ∀ l ∈ trees, s.IsLoc l := by
    obtain ⟨o, h3, h4⟩ := hs.good.initial
    have h3' : s.ts.initialLoc = .ok o := h3
    unfold collectLocations
    dsimp only
    rw [h3', ok_bind]
    cases o with
    | none => exact ⟨[], rfl, by rintro l ⟨⟩⟩
    | some l0 =>
      obtain ⟨trees, h5, h6, _⟩ := collectReachable_total hs ho (all := locs) (fun l hl => (h2 l).2 hl) fuel l0 [l0]
        (fun x hx => by rw [List.mem_singleton.1 hx]; exact h4 l0 rfl) (by simp) (h4 l0 rfl) (by simpa using hf)
      exact ⟨trees, h5, h6⟩
  obtain ⟨trees, h5, h6⟩ := key
  rcases combine_ovf hs hd hcov ho h5 h6 with ⟨c, hc, _⟩ | hc
  · exact .inl ⟨_, by unfold getComponent; rw [hc]; rfl⟩
  · exact .inr (by unfold getComponent; rw [hc]; rfl)

/-! ## Examples -/

theorem NoDigitEnd.of_bool {n : String} (h : (n.toList.getLast?.all fun c => !c.isDigit) = true) : NoDigitEnd n := by
  intro c hc
  rw [hc] at h
  simpa using h

/-- The action orders used in examples. -/
def plainActs (s : Sys F) : ActionOrder F := fun _ => (s.inputs, s.outputs)

omit [ZoneLib F] in
theorem plainActs_for (s : Sys F) : (plainActs s).For s := fun _ => ⟨.refl _, .refl _⟩

/-- `(A || B) \\ A` saved: all hypotheses of `C30_saved_partial` are met. -/
example : sysQ.Accepted ∧ sysQ.Readable ∧ sysQ.NamesDistinct ∧ sysQ.inputs.Nodup ∧ sysQ.outputs.Nodup ∧
    (plainActs sysQ).For sysQ ∧ (∃ c, getComponent sysQ (plainActs sysQ) 12 "Q" = .ok c ∧ c.locations.length = 3) ∧
    ∃ l0, sysQ.initialLoc = .ok (some l0) := by
  refine ⟨sysQ_accepted, by decide +kernel, by unfold Sys.NamesDistinct; decide +kernel, by decide +kernel,
    by decide +kernel, plainActs_for _, ?_, ?_⟩
  · exact ⟨getOk (getComponent sysQ (plainActs sysQ) 12 "Q") (by decide +kernel), getOk_eq _, by decide +kernel⟩
  · exact ⟨_, rfl⟩

/-- The hypotheses of `C30_total` are met by the same system; its zones have clocks 1 to 3. -/
example : sysQ.Accepted ∧ sysQ.NamesDistinct ∧ (∀ d ∈ sysQ.decls, ∀ p ∈ d.clocks, NoDigitEnd p.1) ∧
    (∀ i, 0 < i → i < dim Fed4 → i ∈ sysQ.clocks) ∧ ∃ locs, sysQ.allLocs = .ok locs ∧ locs.length = 10 := by
  refine ⟨sysQ_accepted, by unfold Sys.NamesDistinct; decide +kernel, ?_, ?_, _, rfl, by decide +kernel⟩
  · have : ∀ d ∈ sysQ.decls, ∀ p ∈ d.clocks, (p.1.toList.getLast?.all fun c => !c.isDigit) = true := by decide +kernel
    exact fun d hd p hp => NoDigitEnd.of_bool (this d hd p hp)
  · rw [dim_fed4]
    have : ∀ i < 4, 0 < i → i ∈ sysQ.clocks := by decide +kernel
    exact fun i h1 h2 => this i h2 h1

/-! ## The violation -/

/-- Location names that contain the printed operator. -/
def exBarA : Component := ⟨"A", ⟨[], []⟩,
  [⟨"a", none, .initial, "NORMAL"⟩, ⟨"a||b", none, .normal, "NORMAL"⟩],
  [⟨"e0", "a", "a||b", .output, none, none, "x"⟩]⟩

def exBarB : Component := ⟨"B", ⟨[], []⟩,
  [⟨"b||c", none, .initial, "NORMAL"⟩, ⟨"c", none, .normal, "NORMAL"⟩],
  [⟨"f0", "b||c", "c", .output, none, none, "y"⟩]⟩

def sysBarA : Sys Fed4 := .comp (getOk (CompComp.compile id exBarA 0) (by decide +kernel))
def sysBarB : Sys Fed4 := .comp (getOk (CompComp.compile id exBarB 1) (by decide +kernel))
def sysBar : Sys Fed4 := getOk (Sys.newComposition sysBarA sysBarB) (by decide +kernel)

theorem sysBar_accepted : sysBar.Accepted :=
  .composition (.comp (Component.ok_of_okB (by decide)) (fun _ => .refl _) (getOk_eq _))
    (.comp (Component.ok_of_okB (by decide)) (fun _ => .refl _) (getOk_eq _))
    (getOk_eq (r := Sys.newComposition sysBarA sysBarB) _)

def exBar : Component := getOk (getComponent sysBar (plainActs sysBar) 12 "AB") (by decide +kernel)

/-- **C30 is violated** when location names contain operators: the saved component of this composition has two
locations with the same name, and reading it back panics. -/
theorem C30_violated_names : sysBar.Accepted ∧ getComponent sysBar (plainActs sysBar) 12 "AB" = .ok exBar ∧
    ¬ (exBar.locations.map (·.id)).Nodup ∧
    (CompComp.compile id exBar 0 : Res (CompComp Fed4)) = .error (.panic "Unable to retrieve location based on id") := by
  refine ⟨sysBar_accepted, getOk_eq _, by decide +kernel, ?_⟩
  have : (match (CompComp.compile id exBar 0 : Res (CompComp Fed4)) with
    | .error (.panic m) => decide (m = "Unable to retrieve location based on id") | _ => false) = true := by
    decide +kernel
  revert this
  split
  · next h => intro hm; rw [h, of_decide_eq_true hm]
  · rintro ⟨⟩

end Reveaal
