import Verif.Props.C48
import Verif.Props.C78
import Verif.Props.C78Save

/-!
# C48: a saved component can be built again
-/

namespace Reveaal
open ZoneLib
variable {F : Type} [ZoneLib F]

/-! ## Generated guards are read exactly -/

theorem varFromNaming_clock {naming : List (String × Nat)} (hg : GoodNaming naming) {i : Nat} {x : Arith}
    (h : varFromNaming (invertNaming naming) i = .ok x) (ints : List (String × Int)) : IsClock ⟨ints, naming⟩ x i := by
  unfold varFromNaming at h
  obtain ⟨n, h1, h⟩ := bind_ok h
  cases h
  unfold unwrap at h1
  split at h1
  · next s hs =>
    cases h1
    exact .inr ⟨_, rfl, invertNaming_some hg hs⟩
  · cases h1

theorem fromConstraint_good {naming : List (String × Nat)} (hg : GoodNaming naming) {k : Constr} {e : BoolE}
    (h : fromConstraint (invertNaming naming) k = .ok e) (ints : List (String × Int)) : GoodGuard ⟨ints, naming⟩ e := by
  obtain ⟨i, j, q⟩ := k
  cases q
  all_goals
    unfold fromConstraint at h
    dsimp only at h
    split at h
    · cases h
    · obtain ⟨x, h1, h⟩ := bind_ok h
      obtain ⟨b, _, h⟩ := bind_ok h
      have hx := varFromNaming_clock hg h1 ints
      cases h
      exact .posConst (.chain (.clock hx)) rfl
    · obtain ⟨x, h1, h⟩ := bind_ok h
      have hx := varFromNaming_clock hg h1 ints
      cases h
      exact .posConst (.chain (.clock hx)) rfl
    · obtain ⟨x, h1, h⟩ := bind_ok h
      obtain ⟨y, h2, h⟩ := bind_ok h
      have hx := varFromNaming_clock hg h1 ints
      have hy := varFromNaming_clock hg h2 ints
      split at h
      · cases h
        exact .posPos (.chain (.clock hx)) (.chain (.clock hy))
      · cases h
        exact .diffConst (.posSub (.chain (.clock hx)) hy) rfl

theorem fromConjLoop_good {naming : List (String × Nat)} (hg : GoodNaming naming) (ints : List (String × Int)) :
    ∀ (c : List Constr) (acc : Option BoolE) (e : BoolE), (∀ a, acc = some a → GoodGuard ⟨ints, naming⟩ a) →
    fromConjLoop (invertNaming naming) acc c = .ok (some e) → GoodGuard ⟨ints, naming⟩ e
  | [], acc, e, ha, h => ha e (Except.ok.inj h)
  | k :: c, acc, e, ha, h => by
    rw [fromConjLoop] at h
    obtain ⟨x, h1, h⟩ := bind_ok h
    have hx := fromConstraint_good hg h1 ints
    cases acc with
    | none => exact fromConjLoop_good hg ints c _ e (by rintro _ ⟨⟩; exact hx) h
    | some r => exact fromConjLoop_good hg ints c _ e (by rintro _ ⟨⟩; exact ⟨ha r rfl, hx⟩) h

theorem fromConjunction_good {naming : List (String × Nat)} (hg : GoodNaming naming) (ints : List (String × Int)) {c : Conj}
    {e : BoolE} (h : fromConjunction (invertNaming naming) c = .ok (some e)) : GoodGuard ⟨ints, naming⟩ e := by
  unfold fromConjunction at h
  split at h
  · cases h
  · obtain ⟨x, h1, h⟩ := bind_ok h
    cases h
    exact fromConstraint_good hg h1 ints
  · exact fromConjLoop_good hg ints _ _ e (by rintro _ ⟨⟩) h

theorem fromDisjLoop_good {naming : List (String × Nat)} (hg : GoodNaming naming) (ints : List (String × Int)) :
    ∀ (D : List Conj) (acc : Option BoolE) (e : BoolE), (∀ a, acc = some a → GoodGuard ⟨ints, naming⟩ a) →
    fromDisjLoop (invertNaming naming) acc D = .ok (some e) → GoodGuard ⟨ints, naming⟩ e
  | [], acc, e, ha, h => ha e (Except.ok.inj h)
  | c :: D, acc, e, ha, h => by
    rw [fromDisjLoop] at h
    obtain ⟨x, h1, h⟩ := bind_ok h
    cases x with
    | none => cases h
    | some x =>
      have hx := fromConjunction_good hg ints h1
      cases acc with
      | none => exact fromDisjLoop_good hg ints D _ e (by rintro _ ⟨⟩; exact hx) h
      | some r => exact fromDisjLoop_good hg ints D _ e (by rintro _ ⟨⟩; exact ⟨ha r rfl, hx⟩) h

/-- Every guard that is generated from a symbolic set is of the kind that is read exactly. -/
theorem fromDisjunction_good {naming : List (String × Nat)} (hg : GoodNaming naming) (ints : List (String × Int)) {D : Disj}
    {e : BoolE} (h : fromDisjunction D naming = .ok (some e)) : GoodGuard ⟨ints, naming⟩ e := by
  unfold fromDisjunction at h
  split at h
  · cases h; trivial
  · exact fromConjunction_good hg ints h
  · exact fromDisjLoop_good hg ints _ _ e (by rintro _ ⟨⟩) h

/-! ## Saved components are complete -/

/-- The component of a closed list of different locations is complete. -/
theorem SavedAs.complete {s : Sys F} (hs : s.Accepted) (hn : s.Readable) (hd : s.NamesDistinct) {ord : ActionOrder F}
    (ho : ord.For s) {trees : List (LocTree F)} (hloc : ∀ l ∈ trees, s.IsLoc l) (hnd : trees.Nodup)
    (hclosed : ∀ l ∈ trees, s.ClosedAt l trees) {c : Component} (hc : SavedAs s ord trees c) : c.Complete := by
  obtain ⟨hg, hdim⟩ := hs.naming hd
  have edge : ∀ e ∈ c.edges, ∃ (l : LocTree F) (sync : SyncType) (a : String) (t : Transition F) (id : String),
      l ∈ trees ∧ t.target ∈ trees ∧ saveEdge (clockMap s.decls) l sync a t = .ok (some { e with id := id }) := by
    intro e he
    obtain ⟨l, hl, es, hes, id', hid'⟩ := hc.origin e he
    obtain ⟨sync, b, hb, trans, hnb, t, ht, hsv⟩ := (saveEdges_mem hes).2 _ hid'
    exact ⟨l, sync, b, t, id', hl, hclosed l hl b trans (ho.mem.1 hb) hnb t ht, hsv⟩
  have hids : c.locations.map (·.id) = trees.map fun l => l.id.display := by
    have key := hc.locs
    clear edge hc hclosed hnd hloc
    generalize c.locations = locs at key
    induction key with
    | nil => rfl
    | cons hab _ ih => rw [List.map_cons, List.map_cons, ih, (saveLocation_spec hab).1]
  refine ⟨fun e he g hge => ?_, fun loc hl g hge => ?_, ?_, fun e he => ?_, fun e he us hus u hu => ?_⟩
  · obtain ⟨l, sync, a, t, id, _, _, hsv⟩ := edge e he
    obtain ⟨_, _, _, _, _, hgd, _⟩ := (saveEdge_spec hsv).2 _ rfl
    rw [show ({ e with id := id } : Edge).guard = some g from hge] at hgd
    rw [hc.decls]
    exact fromDisjunction_good hg _ hgd
  · obtain ⟨l, _, hsl⟩ := forall2_mem_right hc.locs loc hl
    obtain ⟨_, _, h1, h2⟩ := saveLocation_spec hsl
    cases hi : l.inv with
    | none => rw [h1 hi] at hge; cases hge
    | some z =>
      have hgd := h2 z hi
      rw [hge] at hgd
      rw [hc.decls]
      exact fromDisjunction_good hg _ hgd
  · rw [hids]
    exact hnd.map_on fun a ha b hb he => hs.display_inj hn (hloc a ha) (hloc b hb) he
  · obtain ⟨l, sync, a, t, id, hl, ht, hsv⟩ := edge e he
    obtain ⟨h1, h2, _⟩ := (saveEdge_spec hsv).2 _ rfl
    have h1 : e.source = l.id.display := h1
    have h2 : e.target = t.target.id.display := h2
    rw [hids, h1, h2]
    exact ⟨List.mem_map_of_mem hl, List.mem_map_of_mem ht⟩
  · obtain ⟨l, sync, a, t, id, _, _, hsv⟩ := edge e he
    obtain ⟨_, _, _, _, _, _, _, hup', _⟩ := (saveEdge_spec hsv).2 _ rfl
    rw [show ({ e with id := id } : Edge).update = some us from hus] at hup'
    obtain ⟨cu, hcu, hcu'⟩ := forall2_mem_right (mapM_ok.1 hup') u hu
    unfold CUpdate.asUpdate at hcu'
    obtain ⟨n, hnm, hcu'⟩ := bind_ok hcu'
    cases hcu'
    refine ⟨⟨_, rfl⟩, ?_⟩
    unfold unwrap at hnm
    split at hnm
    · next m hm =>
      cases hnm
      have := lookup_mem (invertNaming_some hg hm)
      rw [hc.decls]
      exact List.mem_map.2 ⟨_, this, rfl⟩
    · cases hnm

/-- Building a complete component with given disjoint sets of actions. -/
theorem compileWith_ovf {c : Component} (hok : c.Ok (dim F)) (hc : c.Complete)
    {order : List (LocId × LocTree F) → List (LocId × LocTree F)} (ho : ∀ l, (order l).Perm l) {ins outs : List String}
    (hd : ∀ a ∈ ins, a ∉ outs) (id : Nat) :
    OkOrOvf (CompComp.compileWith (F := F) order c ins outs id) fun _ => True := by
  unfold CompComp.compileWith
  rw [setDisjoint_iff.2 hd, if_neg (by simp)]
  unfold CompComp.buildLocations
  simp only [bind_assoc]
  cases h : c.locations.mapM (LocTree.simple (F := F) c.decls) with
  | error e =>
    rcases OkOrOvf.mapM (f := LocTree.simple (F := F) c.decls) (l := c.locations)
      (fun l hl => simple_ovf hok hc hl) with ⟨a, h', _⟩ | h'
    · rw [h] at h'; cases h'
    · rw [h] at h'; cases h'; exact .inr rfl
  | ok trees =>
    have hb : CompComp.buildLocations c.decls c.locations = .ok (trees.foldl (fun m t => hmInsert t.id t m) []) := by
      unfold CompComp.buildLocations; rw [h]; rfl
    obtain ⟨_, _, b3⟩ := buildLocations_spec hb
    rw [ok_bind, ok_bind]
    refine (buildEdges_ovf hok hc (fun _ h => h) fun l hl => ?_).bind fun _ _ => .ok trivial
    rw [List.map_map]
    exact ((ho _).map Prod.fst).mem_iff.2 (b3 l hl)

/-- **C48** A saved component is complete, and it can be built again: this fails only if a constant overflows.  For
systems no action of which is an input and an output (`C08`). -/
theorem C48_builds_partial {s : Sys F} (hs : s.Accepted) (hn : s.Readable) (hd : s.NamesDistinct)
    (hio : ∀ a ∈ s.inputs, a ∉ s.outputs) {ord : ActionOrder F} (ho : ord.For s) {fuel : Nat}
    {name : String} {c : Component} (h : getComponent s ord fuel name = .ok c)
    {order : List (LocId × LocTree F) → List (LocId × LocTree F)} (hord : ∀ l, (order l).Perm l) (id : Nat) :
    c.Complete ∧ ((∃ x : CompComp F, CompComp.compile order c id = .ok x) ∨
      CompComp.compile (F := F) order c id = .error (.panic "arithmetic overflow")) := by
  obtain ⟨trees, c0, ess, h2, _, h3, rfl, _, _⟩ := getComponent_spec h
  have h4 := h3.remake (name := name)
  obtain ⟨o, h5, h6⟩ := hs.good.initial
  have key : (∀ l ∈ trees, s.IsLoc l) ∧ trees.Nodup ∧ ∀ l ∈ trees, s.ClosedAt l trees := by
    cases o with
    | none =>
      have h5' : s.ts.initialLoc = .ok none := h5
      unfold collectLocations at h2
      dsimp only at h2
      rw [h5', ok_bind] at h2
      cases h2
      exact ⟨by rintro _ ⟨⟩, .nil, by rintro _ ⟨⟩⟩
    | some l0 =>
      obtain ⟨t1, t2, t3, t4⟩ := collect_linked hs ho h2 h5
      exact ⟨fun l hl => ((t3 l).1 hl).isLoc hs, t1, t4⟩
  obtain ⟨hloc, hnd, hcl⟩ := key
  have hcomp := h4.complete hs hn hd ho hloc hnd hcl
  refine ⟨hcomp, ?_⟩
  have act : ∀ sy a, a ∈ Component.specificActions ({ c0 with name := name } : Component).remakeEdgeIds sy →
      a ∈ s.actionsOf sy := by
    intro sy a ha
    unfold Component.specificActions at ha
    rw [mem_mkSet] at ha
    obtain ⟨e, he, rfl⟩ := List.mem_map.1 ha
    obtain ⟨he, hsy⟩ := List.mem_filter.1 he
    obtain ⟨l, hl, es, hes, id', hid'⟩ := h4.origin e he
    have hes' := hes
    unfold saveEdges at hes'
    obtain ⟨ei, h7, hes'⟩ := bind_ok hes'
    obtain ⟨eo, h8, hes'⟩ := bind_ok hes'
    cases hes'
    have hsy : e.sync = sy := by
      simp only [Bool.and_eq_true, decide_eq_true_eq] at hsy
      exact hsy.1
    rcases List.mem_append.1 hid' with hm | hm
    · obtain ⟨b, hb, trans, _, t, _, hsv⟩ := (saveEdgesOf_mem h7).2 _ hm
      obtain ⟨_, _, q1, q2, _⟩ := (saveEdge_spec hsv).2 _ rfl
      have q1 : e.sync = .input := q1
      have q2 : e.action = b := q2
      rw [← hsy, q1, q2]
      exact (ho l).1.mem_iff.1 hb
    · obtain ⟨b, hb, trans, _, t, _, hsv⟩ := (saveEdgesOf_mem h8).2 _ hm
      obtain ⟨_, _, q1, q2, _⟩ := (saveEdge_spec hsv).2 _ rfl
      have q1 : e.sync = .output := q1
      have q2 : e.action = b := q2
      rw [← hsy, q1, q2]
      exact (ho l).2.mem_iff.1 hb
  rcases compileWith_ovf (h4.ok hs hd ho hloc) hcomp hord (fun a ha hb => hio a (act .input a ha) (act .output a hb)) id with
    ⟨x, hx, _⟩ | hx
  · exact .inl ⟨x, hx⟩
  · exact .inr hx

/-- **C48** A system can be saved and built again without losing anything: if the component that `get-component` answers
with is built, the result behaves like the system, unless a constant overflows.  For systems with ordinary location names,
one initial location per component, no action called `*`, and no action that is an input and an output. -/
theorem C48_saved_again_partial {s : Sys F} (hs : s.Accepted) (hn : s.Readable) (hd : s.NamesDistinct)
    (h1 : s.OneInitial) (hstar : s.hasAction "*" = false) (hio : ∀ a ∈ s.inputs, a ∉ s.outputs) {ord : ActionOrder F}
    (ho : ord.For s) {fuel : Nat} {name : String} {c : Component} (h : getComponent s ord fuel name = .ok c) {l0 : LocTree F}
    (hl0 : s.initialLoc = .ok (some l0))
    {order : List (LocId × LocTree F) → List (LocId × LocTree F)} (hord : ∀ l, (order l).Perm l) (id : Nat) :
    (∃ x : CompComp F, CompComp.compile order c id = .ok x ∧ s.ts.Equivalent (Sys.comp x).ts) ∨
      CompComp.compile (F := F) order c id = .error (.panic "arithmetic overflow") := by
  rcases (C48_builds_partial hs hn hd hio ho h hord id).2 with ⟨x, hx⟩ | hx
  · exact .inl ⟨x, hx, C48_saved_equivalent_partial hs hn hd h1 hstar ho h hl0 hord hx⟩
  · exact .inr hx

/-- Non-vacuity: `(A || B) \\ A` saved is complete and can be built. -/
example : exSavedQ.Complete ∧ ∃ x : CompComp Fed4, CompComp.compile id exSavedQ 0 = .ok x := by
  obtain ⟨h1, h2⟩ := C48_builds_partial (name := "Q") (fuel := 12) (order := id) sysQ_accepted (by decide +kernel)
    (by unfold Sys.NamesDistinct; decide +kernel) (by decide +kernel) (plainActs_for sysQ) (getOk_eq _) (fun _ => .refl _) 0
  exact ⟨h1, h2.resolve_right fun h => by
    have : CompComp.compile id exSavedQ 0 = .ok sysSavedQ := getOk_eq _
    rw [show getOk _ _ = exSavedQ from rfl, this] at h
    cases h⟩

end Reveaal
