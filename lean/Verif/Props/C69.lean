import Verif.Lemmas.Pruned
import Verif.Spec.Prune
import Verif.Lemmas.Convex
import Verif.Props.C29

/-!
# C69 Pruning a component removes the states that cannot avoid its inconsistent locations

`prune(component, dim, inputs, outputs)`, the function behind the pruning of systems (C29), called with a component
that has locations of type inconsistent.
-/

namespace Reveaal
open ZoneLib
variable {F : Type} [ZoneLib F] {c : Component}

/-- What is assumed of the component given to `prune`. -/
structure Prunable (F : Type) [ZoneLib F] (c : Component) (ins outs : List String) : Prop where
  /-- clocks are declared, updates assign non-negative literals -/
  ok : c.Ok (dim F)
  /-- no edge assigns two values to one clock -/
  agree : c.UpdatesAgree
  /-- the names of clocks are different -/
  naming : GoodNaming c.decls.clocks
  /-- the names of locations are different -/
  names : (c.locations.map (·.id)).Nodup
  /-- input edges carry inputs, output edges outputs -/
  acts : ∀ e ∈ c.edges, (e.sync = .input → e.action ∈ ins) ∧ (e.sync = .output → e.action ∈ outs)
  /-- at most one location is initial -/
  initial : ∀ l ∈ c.locations, ∀ l' ∈ c.locations, l.ty = .initial → l'.ty = .initial → l = l'

theorem Prunable.pruneOk {ins outs : List String} (h : Prunable F c ins outs)
    {order : List (LocId × LocTree F) → List (LocId × LocTree F)} (ho : ∀ l, (order l).Perm l) {y : CompComp F}
    {id : Nat} (hy : CompComp.compileWith order c ins outs id = .ok y) : PruneOk F c :=
  ⟨h.ok, h.agree, h.naming, h.names, fun e he =>
    let ⟨t, ht, _⟩ := (compileWith_content ho hy).2.2.2 e he
    ⟨t, ht⟩⟩

theorem PrunedTo.nothing (hc : PruneOk F c) : PrunedTo F c c fun _ => ∅ := by
  refine ⟨rfl, ?_, fun e he => ⟨e, he, .refl e, _, hc.guard_means he, fun _ h => h⟩,
    fun e he v hv _ _ => ⟨e, he, .refl e, _, hc.guard_means he, hv.2.2.1⟩, fun e _ _ v hv => hv.2.2.2.2.elim⟩
  have : ∀ (xs : List Location), (∀ l ∈ xs, l ∈ c.locations) →
      List.Forall₂ (fun (l l' : Location) => l'.id = l.id ∧ l'.ty = l.ty ∧ ∃ S, CondMeans F c.decls l'.invariant S ∧
        ∀ v, Valid (dim F) v → (v ∈ S ↔ v ∈ condSet c.decls l.invariant ∧ v ∉ (∅ : Set Val))) xs xs := by
    intro xs hxs
    induction xs with
    | nil => exact .nil
    | cons l xs ih =>
      refine .cons ⟨rfl, rfl, _, condMeans_code hc.ok.decls (hc.ok.invs l (hxs l (by simp))), fun v _ => by simp⟩
        (ih fun l hl => hxs l (by simp [hl]))
  exact this _ fun _ h => h

theorem prune_spec (hc : PruneOk F c) {predt : F → F → F} {fuel : Nat} {ins outs : List String}
    {order : List (LocId × LocTree F) → List (LocId × LocTree F)} {x : CompComp F}
    (h : prune (pruneWork predt fuel) order c ins outs = .ok x) :
    ∃ c' P, PrunedTo F c c' P ∧ CompComp.compileWith order c' ins outs 0 = .ok x ∧
      (∀ l ∈ c.locations, l.ty = .inconsistent → ∀ v, Valid (dim F) v → v ∈ P l.id) ∧
      (PruneCtx.PredtOk predt → ∀ K, PruneCtx.Safe F c K →
        (∀ l ∈ c.locations, l.ty = .inconsistent → ∀ v, ¬ K l.id v) → ∀ n v, K n v → v ∉ P n) := by
  unfold prune at h
  obtain ⟨flags, h1, h⟩ := bind_ok h
  dsimp only at h
  have hbad : ∀ n, n ∈ (flags.filter (·.2)).map (·.1) ↔ ∃ l ∈ c.locations, l.ty = .inconsistent ∧ l.id = n := by
    intro n
    have h2 := mapM_ok.1 h1
    have one : ∀ (l : Location) (p : String × Bool), (do
        let b ← immediatelyInconsistent F c l
        .ok (l.id, b)) = (.ok p : Res _) → p.1 = l.id ∧ (p.2 = true ↔ l.ty = .inconsistent) := by
      intro l p hp
      obtain ⟨b, hb, hp⟩ := bind_ok hp
      cases hp
      unfold immediatelyInconsistent at hb
      obtain ⟨t, ht, hb⟩ := bind_ok hb
      cases hb
      obtain ⟨inv, rfl, _⟩ := simple_spec ht
      exact ⟨rfl, decide_eq_true_iff⟩
    constructor
    · intro hn
      obtain ⟨p, hp, rfl⟩ := List.mem_map.1 hn
      obtain ⟨hp1, hp2⟩ := List.mem_filter.1 hp
      obtain ⟨l, hl, he⟩ := forall2_mem_right h2 p hp1
      obtain ⟨q1, q2⟩ := one l p he
      exact ⟨l, hl, q2.1 hp2, q1.symm⟩
    · rintro ⟨l, hl, hty, rfl⟩
      obtain ⟨p, hp, he⟩ := forall2_mem_left h2 l hl
      obtain ⟨q1, q2⟩ := one l p he
      exact List.mem_map.2 ⟨p, List.mem_filter.2 ⟨hp, q2.2 hty⟩, q1⟩
  generalize (flags.filter (·.2)).map (·.1) = bad at h hbad
  split at h
  · rename_i hemp
    obtain ⟨c', h2, h⟩ := bind_ok h
    cases h2
    have hnone : ∀ l ∈ c.locations, l.ty = .inconsistent → False := by
      intro l hl hty
      have := (hbad l.id).2 ⟨l, hl, hty, rfl⟩
      rw [List.isEmpty_iff.1 hemp] at this
      cases this
    exact ⟨c, _, .nothing hc, h, fun l hl hty => (hnone l hl hty).elim, fun _ _ _ _ _ _ _ h => h⟩
  · obtain ⟨c', h2, h⟩ := bind_ok h
    obtain ⟨P, p1, p2, p3⟩ := pruneWork_spec hc h2
    refine ⟨c', P, p1, h, fun l hl hty => p2 _ ((hbad _).2 ⟨l, hl, hty, rfl⟩), fun hp K hK hb => p3 hp K hK ?_⟩
    intro n hn
    obtain ⟨l, hl, hty, rfl⟩ := (hbad n).1 hn
    exact hb l hl hty

/-! ## A location and what is left of it -/

theorem eq_of_name {ls : List Location} (hn : (ls.map (·.id)).Nodup) {l l' : Location} (hl : l ∈ ls) (hl' : l' ∈ ls)
    (h : l.id = l'.id) : l = l' := List.inj_on_of_nodup_map hn hl hl' h

theorem locationByName_of_mem (hn : (c.locations.map (·.id)).Nodup) {l : Location} (hl : l ∈ c.locations) :
    c.locationByName l.id = .ok l := by
  have : c.locations.filter (fun l' => l'.id = l.id) = [l] := by
    have hnd : (c.locations.filter (fun l' => decide (l'.id = l.id))).Nodup := (List.Nodup.of_map _ hn).filter _
    refine List.perm_singleton.1 ((List.perm_ext_iff_of_nodup hnd (by simp)).2 fun l' => ?_)
    simp only [List.mem_filter, decide_eq_true_eq, List.mem_singleton]
    exact ⟨fun h => eq_of_name hn h.1 hl h.2, by rintro rfl; exact ⟨hl, rfl⟩⟩
  unfold Component.locationByName
  rw [this]

/-- The locations `m` and `l` come from the location `n` of the component and of the pruned component. -/
structure Twin (c c' : Component) (P : String → Set Val) (n : String) (m l : LocTree F) : Prop where
  idl : m.id = .simple n
  idr : l.id = .simple n
  ty : l.ty = m.ty
  left : ∀ v, Valid (dim F) v → (v ∈ InvSet m ↔ v ∈ c.invAt n)
  right : ∀ v, Valid (dim F) v → (v ∈ InvSet l ↔ v ∈ c.invAt n ∧ v ∉ P n)
  loc : ∃ loc ∈ c.locations, loc.id = n ∧ loc.ty = m.ty

variable {c' : Component} {P : String → Set Val}

theorem PrunedTo.names (h : PrunedTo F c c' P) : c'.locations.map (·.id) = c.locations.map (·.id) := by
  have := h.locs
  generalize c.locations = xs at this
  generalize c'.locations = ys at this
  induction this with
  | nil => rfl
  | cons hab _ ih => rw [List.map_cons, List.map_cons, ih, hab.1]

theorem PrunedTo.twin (hc : PruneOk F c) (h : PrunedTo F c c' P) {loc loc' : Location} (hl : loc ∈ c.locations)
    (hl' : loc' ∈ c'.locations) (hid : loc'.id = loc.id) {m l : LocTree F} (hm : LocTree.simple c.decls loc = .ok m)
    (hs : LocTree.simple c'.decls loc' = .ok l) : Twin c c' P loc.id m l := by
  obtain ⟨loc2, hl2, h1, h2, S, hS, hv⟩ := forall2_mem_right h.locs loc' hl'
  have : loc2 = loc := eq_of_name hc.names hl2 hl (by rw [← h1, hid])
  subst this
  rw [h.decls] at hs
  obtain ⟨i1, rfl, _⟩ := simple_spec hm
  obtain ⟨i2, rfl, _⟩ := simple_spec hs
  have hby := locationByName_of_mem hc.names hl
  refine ⟨rfl, by rw [← hid]; rfl, h2, fun v hv' => simple_inv (hc.inv_means hby) hm hv', fun v hv' => ?_,
    loc2, hl, rfl, rfl⟩
  rw [simple_inv hS hs hv', hv v hv']
  refine and_congr_left fun _ => ⟨fun h l hl => by rw [hby] at hl; cases hl; exact h, fun h => h _ hby⟩

/-- A component, compiled. -/
structure Compiled (c : Component) (ins outs : List String) (y : CompComp F) : Prop where
  comp : ∃ order : List (LocId × LocTree F) → List (LocId × LocTree F), (∀ l, (order l).Perm l) ∧
    ∃ id, CompComp.compileWith order c ins outs id = .ok y

theorem Compiled.acts {ins outs : List String} {y : CompComp F} (h : Compiled c ins outs y) :
    y.inputs = ins ∧ y.outputs = outs := by
  obtain ⟨order, ho, id, hy⟩ := h.comp
  obtain ⟨h1, h2, _⟩ := compileWith_content ho hy
  exact ⟨h1, h2⟩

theorem Compiled.from {ins outs : List String} {y : CompComp F} (h : Compiled c ins outs y) {m : LocTree F}
    (hm : (Sys.comp y).IsLoc m) : ∃ loc ∈ c.locations, LocTree.simple c.decls loc = .ok m := by
  obtain ⟨order, ho, id, hy⟩ := h.comp
  obtain ⟨_, _, h3, _⟩ := compileWith_content ho hy
  obtain ⟨p, hp, rfl⟩ := hm
  exact (h3 p hp).2

theorem Compiled.has {ins outs : List String} {y : CompComp F} (h : Compiled c ins outs y)
    (hn : (c.locations.map (·.id)).Nodup) {loc : Location} (hl : loc ∈ c.locations) :
    ∃ m, LocTree.simple c.decls loc = .ok m ∧ (Sys.comp y).IsLoc m := by
  obtain ⟨order, ho, id, hy⟩ := h.comp
  unfold CompComp.compileWith at hy
  split at hy
  · cases hy
  obtain ⟨locs0, h1, hy⟩ := bind_ok hy
  obtain ⟨edges, h2, hy⟩ := bind_ok hy
  cases hy
  obtain ⟨b1, b2, b3⟩ := buildLocations_spec h1
  obtain ⟨p, hp, hk⟩ := List.mem_map.1 (b3 loc hl)
  obtain ⟨q1, loc2, hl2, hs⟩ := b2 p hp
  have : loc2 = loc := by
    obtain ⟨inv, hp2, _⟩ := simple_spec hs
    refine eq_of_name hn hl2 hl ?_
    rw [hk, hp2] at q1
    simpa [LocTree.id] using q1
  subst this
  exact ⟨p.2, hs, p, ((ho locs0).mem_iff).2 hp, rfl⟩

theorem Compiled.unique {ins outs : List String} {y : CompComp F} (h : Compiled c ins outs y)
    (hn : (c.locations.map (·.id)).Nodup) {m m' : LocTree F} (hm : (Sys.comp y).IsLoc m) (hm' : (Sys.comp y).IsLoc m')
    (hid : m.id = m'.id) : m = m' := by
  obtain ⟨l, hl, hs⟩ := h.from hm
  obtain ⟨l', hl', hs'⟩ := h.from hm'
  obtain ⟨i, rfl, _⟩ := simple_spec hs
  obtain ⟨i', rfl, _⟩ := simple_spec hs'
  have : l = l' := eq_of_name hn hl hl' (by simpa [LocTree.id] using hid)
  subst this
  rw [hs] at hs'
  exact Except.ok.inj hs'

section
variable {ins outs : List String} {y x : CompComp F}

theorem PrunedTo.names_nodup (hc : PruneOk F c) (h : PrunedTo F c c' P) : (c'.locations.map (·.id)).Nodup := by
  rw [h.names]; exact hc.names

theorem twin_of_ids (hc : PruneOk F c) (h : PrunedTo F c c' P) (hy : Compiled c ins outs y) (hx : Compiled c' ins outs x)
    {m l : LocTree F} (hm : (Sys.comp y).IsLoc m) (hl : (Sys.comp x).IsLoc l) (hid : m.id = l.id) :
    ∃ n, Twin c c' P n m l := by
  obtain ⟨loc, h1, h2⟩ := hy.from hm
  obtain ⟨loc', h3, h4⟩ := hx.from hl
  refine ⟨loc.id, h.twin hc h1 h3 ?_ h2 h4⟩
  obtain ⟨_, rfl, _⟩ := simple_spec h2
  obtain ⟨_, rfl, _⟩ := simple_spec h4
  simpa [LocTree.id] using hid.symm

theorem left_twin (hc : PruneOk F c) (h : PrunedTo F c c' P) (hy : Compiled c ins outs y) (hx : Compiled c' ins outs x)
    {l : LocTree F} (hl : (Sys.comp x).IsLoc l) : ∃ m n, (Sys.comp y).IsLoc m ∧ Twin c c' P n m l := by
  obtain ⟨loc', h3, h4⟩ := hx.from hl
  obtain ⟨loc, h1, h2, _⟩ := forall2_mem_right h.locs loc' h3
  obtain ⟨m, h5, h6⟩ := hy.has hc.names h1
  exact ⟨m, _, h6, h.twin hc h1 h3 h2 h5 h4⟩

theorem right_twin (hc : PruneOk F c) (h : PrunedTo F c c' P) (hy : Compiled c ins outs y) (hx : Compiled c' ins outs x)
    {m : LocTree F} (hm : (Sys.comp y).IsLoc m) : ∃ l n, (Sys.comp x).IsLoc l ∧ Twin c c' P n m l := by
  obtain ⟨loc, h3, h4⟩ := hy.from hm
  obtain ⟨loc', h1, h2, _⟩ := forall2_mem_left h.locs loc h3
  obtain ⟨l, h5, h6⟩ := hx.has (h.names_nodup hc) h1
  exact ⟨l, _, h6, h.twin hc h3 h1 h2 h4 h5⟩

/-- An edge of the component and what is left of it, compiled. -/
theorem edge_twin (hc : PruneOk F c) (h : PrunedTo F c c' P) (hy : Compiled c ins outs y) (hx : Compiled c' ins outs x)
    {e e' : Edge} (hs : e.Same e') {t t' : Transition F} (ht : Transition.fromEdge c e = .ok t)
    (ht' : Transition.fromEdge c' e' = .ok t') : t.updates = e.ups c.decls ∧ t'.updates = t.updates ∧
      (Sys.comp y).IsLoc t.target ∧ (Sys.comp x).IsLoc t'.target ∧ Twin c c' P e.target t.target t'.target := by
  obtain ⟨q1, q2, q3, q4, q5⟩ := hs.upd
  have hups : ∀ {c : Component} {e : Edge} {t : Transition F}, Transition.fromEdge c e = .ok t →
      e.compileUpdates c.decls = .ok t.updates := by
    intro c e t ht
    unfold Transition.fromEdge at ht
    obtain ⟨_, _, ht⟩ := bind_ok ht
    obtain ⟨_, _, ht⟩ := bind_ok ht
    obtain ⟨us, h3, ht⟩ := bind_ok ht
    obtain ⟨_, _, ht⟩ := bind_ok ht
    cases ht
    exact h3
  have u1 := hups ht
  have u2 := hups ht'
  rw [h.decls, (ups_same q4).1, u1] at u2
  obtain ⟨⟨l, hl, hsl⟩, _⟩ := fromEdge_spec ht
  obtain ⟨⟨l', hl', hsl'⟩, _⟩ := fromEdge_spec ht'
  obtain ⟨m1, m2⟩ := filter_singleton_mem hl
  obtain ⟨m1', m2'⟩ := filter_singleton_mem hl'
  have m2 : l.id = e.target := of_decide_eq_true m2
  have m2' : l'.id = e'.target := of_decide_eq_true m2'
  obtain ⟨m, hm1, hm2⟩ := hy.has hc.names m1
  obtain ⟨m', hm1', hm2'⟩ := hx.has (h.names_nodup hc) m1'
  rw [hsl] at hm1; cases hm1
  rw [hsl'] at hm1'; cases hm1'
  refine ⟨by unfold Edge.ups; rw [u1], (Except.ok.inj u2).symm, hm2, hm2', ?_⟩
  rw [← m2]
  exact h.twin hc m1 m1' (by rw [m2', q2, m2]) hsl hsl'

/-- The moves of the pruned component are the moves of the component that lead to states that are left. -/
theorem twin_act (hc : PruneOk F c) (h : PrunedTo F c c' P) (hy : Compiled c ins outs y) (hx : Compiled c' ins outs x)
    {n : String} {m l : LocTree F} (hm : (Sys.comp y).IsLoc m) (hl : (Sys.comp x).IsLoc l) (ht : Twin c c' P n m l)
    {v : Val} (hv : Valid (dim F) v) (hvl : v ∈ InvSet l) {a : String} (hi : l.isInconsistent = false ∨ a ∉ ins)
    {v' : Val} :
    (∀ l', (Sys.comp x).ts.Act l v a l' v' → ∃ m' n', (Sys.comp y).IsLoc m' ∧ (Sys.comp x).IsLoc l' ∧
      Twin c c' P n' m' l' ∧ (Sys.comp y).ts.Act m v a m' v' ∧ v' ∈ InvSet l' ∧ Valid (dim F) v') ∧
    (∀ m', (Sys.comp y).ts.Act m v a m' v' → ∃ l' n', (Sys.comp y).IsLoc m' ∧ (Sys.comp x).IsLoc l' ∧
      Twin c c' P n' m' l' ∧ Valid (dim F) v' ∧ v' ∈ InvSet m' ∧
      (v' ∈ InvSet l' → (Sys.comp x).ts.Act l v a l' v')) := by
  have hinv := (ht.right v hv).1 hvl
  have hvm : v ∈ InvSet m := (ht.left v hv).2 hinv.1
  cases hu : l.isUniversal with
  | true =>
    have hum : m.isUniversal = true := by
      unfold LocTree.isUniversal at hu ⊢; rw [← ht.ty]; exact hu
    obtain ⟨yi, yo⟩ := hy.acts
    obtain ⟨xi, xo⟩ := hx.acts
    constructor
    · intro l' hact
      obtain ⟨ha, _, _, rfl, rfl⟩ := (comp_act_universal hu).1 hact
      exact ⟨m, n, hm, hl, ht, (comp_act_universal hum).2 ⟨by rw [yi, yo]; rw [xi, xo] at ha; exact ha, hv, hvm, rfl, rfl⟩,
        hvl, hv⟩
    · intro m' hact
      obtain ⟨ha, _, _, rfl, rfl⟩ := (comp_act_universal hum).1 hact
      exact ⟨l, n, hm, hl, ht, hv, hvm, fun _ => (comp_act_universal hu).2
        ⟨by rw [xi, xo]; rw [yi, yo] at ha; exact ha, hv, hvl, rfl, rfl⟩⟩
  | false =>
    have hum : m.isUniversal = false := by
      unfold LocTree.isUniversal at hu ⊢; rw [← ht.ty]; exact hu
    have him : m.isInconsistent = false ∨ a ∉ ins := by
      rcases hi with hi | hi
      · left; unfold LocTree.isInconsistent at hi ⊢; rw [← ht.ty]; exact hi
      · exact .inr hi
    obtain ⟨oy, hoy, iy, hcy⟩ := hy.comp
    obtain ⟨ox, hox, ix, hcx⟩ := hx.comp
    constructor
    · intro l' hact
      obtain ⟨ha, e', he', hsrc, hact', t', ht', hcan, rfl, rfl⟩ := (comp_act hox hcx hl hu hi).1 hact
      obtain ⟨e, he, hs, S, hS, hsub⟩ := h.edges e' he'
      obtain ⟨t, htt⟩ := hc.compiles e he
      obtain ⟨w1, w2, w3, w4, w5⟩ := edge_twin hc h hy hx hs htt ht'
      obtain ⟨q1, q2, q3, q4, q5⟩ := hs.upd
      have hval : Valid (dim F) (runUpdates t'.updates v) := by
        rw [w2, w1]; exact runUpdates_valid (hc.ups he).2.1 hv
      refine ⟨t.target, e.target, w3, w4, w5, (comp_act hoy hcy hm hum him).2 ⟨ha, e, he, ?_, by rw [← q5]; exact hact',
        t, htt, ⟨?_, ?_⟩, rfl, by rw [w2]⟩, hcan.2, hval⟩
      · rw [← q1, hsrc, ht.idl, ht.idr]
      · rw [fromEdge_guard (hc.guard_means he) htt hv]
        rw [← h.decls] at hS
        exact hsub ((fromEdge_guard hS ht' hv).1 hcan.1)
      · rw [← w2, w5.left _ hval]
        exact ((w5.right _ hval).1 hcan.2).1
    · intro m' hact
      obtain ⟨ha, e, he, hsrc, hact', t, htt, hcan, rfl, rfl⟩ := (comp_act hoy hcy hm hum him).1 hact
      have hes : e.source = n := by
        rw [ht.idl] at hsrc; simpa using hsrc
      -- the target location is there, whether or not the edge is
      obtain ⟨⟨loc, hloc, hsl⟩, _⟩ := fromEdge_spec htt
      obtain ⟨z1, z2⟩ := filter_singleton_mem hloc
      obtain ⟨mm, hm1, hm2⟩ := hy.has hc.names z1
      rw [hsl] at hm1; cases hm1
      obtain ⟨l', n', hl', hT⟩ := right_twin hc h hy hx hm2
      have hval : Valid (dim F) (runUpdates t.updates v) := runUpdates_valid (fromEdge_updates hc.ok he htt).1 hv
      refine ⟨l', n', hm2, hl', hT, hval, hcan.2, fun hin => ?_⟩
      have hups : t.updates = e.ups c.decls := (edge_twin (e' := e) hc (.nothing hc) hy hy (.refl e) htt htt).1
      have hn' : n' = e.target := by
        have z2 : loc.id = e.target := of_decide_eq_true z2
        obtain ⟨i, hi', _⟩ := simple_spec hsl
        have := hT.idl
        rw [hi'] at this
        simp only [LocTree.id, LocId.simple.injEq] at this
        rw [← this, z2]
      subst hn'
      have hin' := (hT.right _ hval).1 hin
      obtain ⟨e', he', hs, S, hS, hvS⟩ := h.kept e he v
        ⟨hv, by rw [hes]; exact hinv.1, (fromEdge_guard (hc.guard_means he) htt hv).1 hcan.1,
          by rw [← hups]; exact hin'.1, trivial⟩ (by rw [hes]; exact hinv.2) (by rw [← hups]; exact hin'.2)
      obtain ⟨q1, q2, q3, q4, q5⟩ := hs.upd
      obtain ⟨t', ht', _⟩ := (compileWith_content hox hcx).2.2.2 e' he'
      obtain ⟨w1, w2, w3, w4, w5⟩ := edge_twin hc h hy hx hs htt ht'
      have hlt : l' = t'.target := hx.unique (h.names_nodup hc) hl' w4 (by rw [hT.idr, w5.idr])
      subst hlt
      refine (comp_act hox hcx hl hu hi).2 ⟨ha, e', he', by rw [q1, hsrc, ht.idl, ht.idr], by rw [q5]; exact hact',
        t', ht', ⟨?_, by rw [w2]; exact hin⟩, rfl, by rw [w2]⟩
      rw [← h.decls] at hS
      exact (fromEdge_guard hS ht' hv).2 hvS

/-- What is known about a pruned component. -/
structure PruneRun (c c' : Component) (ins outs : List String) (P : String → Set Val) (y x : CompComp F) : Prop where
  ok : PruneOk F c
  res : PrunedTo F c c' P
  left : Compiled c ins outs y
  right : Compiled c' ins outs x
  bad : ∀ l ∈ c.locations, l.ty = .inconsistent → ∀ v, Valid (dim F) v → v ∈ P l.id
  acts : ∀ e ∈ c.edges, (e.sync = .input → e.action ∈ ins) ∧ (e.sync = .output → e.action ∈ outs)
  initial : ∀ l ∈ c.locations, ∀ l' ∈ c.locations, l.ty = .initial → l'.ty = .initial → l = l'

theorem PruneRun.disjoint (h : PruneRun c c' ins outs P y x) : ∀ a ∈ ins, a ∉ outs := by
  obtain ⟨order, ho, id, hy⟩ := h.left.comp
  unfold CompComp.compileWith at hy
  split at hy
  · cases hy
  · rename_i hd
    exact setDisjoint_iff.1 (by simpa using hd)

theorem PruneRun.consistent (h : PruneRun c c' ins outs P y x) {n : String} {m l : LocTree F} (ht : Twin c c' P n m l) {v : Val}
    (hv : Valid (dim F) v) (hvl : v ∈ InvSet l) : l.isInconsistent = false := by
  by_contra hi
  have hi : l.ty = .inconsistent := by simpa [LocTree.isInconsistent] using hi
  obtain ⟨loc, h1, h2, h3⟩ := ht.loc
  have := h.bad loc h1 (by rw [h3, ← ht.ty, hi]) v hv
  rw [h2] at this
  exact ((ht.right v hv).1 hvl).2 this

theorem Compiled.initial (hy : Compiled c ins outs y) (hn : (c.locations.map (·.id)).Nodup)
    (h1 : ∀ l ∈ c.locations, ∀ l' ∈ c.locations, l.ty = .initial → l'.ty = .initial → l = l') (m : LocTree F) :
    (Sys.comp y).ts.initialLoc = .ok (some m) ↔ (Sys.comp y).IsLoc m ∧ m.isInitial = true := by
  have hdef : (Sys.comp y).ts.initialLoc = .ok ((y.locations.map (·.2)).find? fun l => l.isInitial) := by
    obtain ⟨order, ho, id, hcy⟩ := hy.comp
    unfold CompComp.compileWith at hcy
    split at hcy
    · cases hcy
    obtain ⟨locs0, _, hcy⟩ := bind_ok hcy
    obtain ⟨edges, _, hcy⟩ := bind_ok hcy
    cases hcy
    rfl
  rw [hdef, Except.ok.injEq]
  constructor
  · intro h
    obtain ⟨p, hp, rfl⟩ := List.mem_map.1 (List.mem_of_find?_eq_some h)
    exact ⟨⟨p, hp, rfl⟩, List.find?_some h⟩
  · rintro ⟨hm, hi⟩
    cases hf : (y.locations.map (·.2)).find? fun l => l.isInitial with
    | none =>
      obtain ⟨p, hp, rfl⟩ := hm
      have := List.find?_eq_none.1 hf p.2 (List.mem_map.2 ⟨p, hp, rfl⟩)
      rw [hi] at this; exact absurd rfl this
    | some m' =>
      obtain ⟨p, hp, rfl⟩ := List.mem_map.1 (List.mem_of_find?_eq_some hf)
      have hi' := List.find?_some hf
      have hm' : (Sys.comp y).IsLoc p.2 := ⟨p, hp, rfl⟩
      congr 1
      refine hy.unique hn hm' hm ?_
      obtain ⟨l, hl, hs⟩ := hy.from hm
      obtain ⟨l', hl', hs'⟩ := hy.from hm'
      obtain ⟨i, hm2, _⟩ := simple_spec hs
      obtain ⟨i', hm2', _⟩ := simple_spec hs'
      have : l' = l := by
        refine h1 _ hl' _ hl ?_ ?_
        · rw [hm2'] at hi'; exact of_decide_eq_true hi'
        · rw [hm2] at hi; exact of_decide_eq_true hi
      rw [hm2, hm2', this]
      rfl

theorem PruneRun.initial' (h : PruneRun c c' ins outs P y x) :
    ∀ l ∈ c'.locations, ∀ l' ∈ c'.locations, l.ty = .initial → l'.ty = .initial → l = l' := by
  intro l hl l' hl' hi hi'
  obtain ⟨k, hk, q1, q2, _⟩ := forall2_mem_right h.res.locs l hl
  obtain ⟨k', hk', q1', q2', _⟩ := forall2_mem_right h.res.locs l' hl'
  refine eq_of_name (h.res.names_nodup h.ok) hl hl' ?_
  rw [q1, q1', h.initial k hk k' hk' (by rw [← q2, hi]) (by rw [← q2', hi'])]

theorem zeroVal_ok : Valid (dim F) zeroVal := ⟨rfl, fun _ => le_refl _, fun _ _ => rfl⟩

/-- Every state of the pruned component is a state of the component. -/
theorem PruneRun.reach (h : PruneRun c c' ins outs P y x) {l : LocTree F} {v : Val} (hr : (Sys.comp x).ts.Reach l v) :
    Valid (dim F) v ∧ v ∈ InvSet l ∧ (Sys.comp x).IsLoc l ∧
      ∃ m n, (Sys.comp y).IsLoc m ∧ Twin c c' P n m l ∧ (Sys.comp y).ts.Reach m v := by
  induction hr with
  | @init l h' hv =>
    obtain ⟨h1, h2⟩ := (h.right.initial (h.res.names_nodup h.ok) h.initial' l).1 h'
    obtain ⟨m, n, hm, ht⟩ := left_twin h.ok h.res h.left h.right h1
    refine ⟨zeroVal_ok, hv, h1, m, n, hm, ht, .init ((h.left.initial h.ok.names h.initial m).2 ⟨hm, ?_⟩) ?_⟩
    · unfold LocTree.isInitial at h2 ⊢; rw [← ht.ty]; exact h2
    · exact (ht.left _ zeroVal_ok).2 ((ht.right _ zeroVal_ok).1 hv).1
  | @act l v a l' v' _ hact ih =>
    obtain ⟨hv, hin, hl, m, n, hm, ht, hr⟩ := ih
    obtain ⟨m', n', h1, h2, h3, h4, h5, h6⟩ :=
      (twin_act h.ok h.res h.left h.right hm hl ht hv hin (.inl (h.consistent ht hv hin))).1 l' hact
    exact ⟨h6, h5, h2, m', n', h1, h3, .act hr h4⟩
  | @delay l v d _ hd ih =>
    obtain ⟨hv, hin, hl, m, n, hm, ht, hr⟩ := ih
    refine ⟨delay_valid hv hd.1, hd.2 d hd.1 (le_refl _), hl, m, n, hm, ht, .delay hr ⟨hd.1, fun d' h1 h2 => ?_⟩⟩
    have hvd := delay_valid (n := dim F) hv h1
    exact (ht.left _ hvd).2 ((ht.right _ hvd).1 (hd.2 d' h1 h2)).1

theorem twin_unique {n n' : String} {m l : LocTree F} (h : Twin c c' P n m l) (h' : Twin c c' P n' m l) : n = n' := by
  have := h.idl.symm.trans h'.idl
  simpa using this

/-- Every input is kept. -/
theorem PruneRun.input (h : PruneRun c c' ins outs P y x) {n : String} {m l : LocTree F} (hm : (Sys.comp y).IsLoc m)
    (hl : (Sys.comp x).IsLoc l) (ht : Twin c c' P n m l) {v : Val} (hv : Valid (dim F) v) (hvl : v ∈ InvSet l)
    {a : String} (ha : a ∈ ins) {m' : LocTree F} {v' : Val} (hact : (Sys.comp y).ts.Act m v a m' v') :
    ∃ l' n', (Sys.comp x).IsLoc l' ∧ Twin c c' P n' m' l' ∧ (Sys.comp x).ts.Act l v a l' v' := by
  have hcons := h.consistent ht hv hvl
  have hinv := (ht.right v hv).1 hvl
  cases hu : l.isUniversal with
  | true =>
    have hum : m.isUniversal = true := by unfold LocTree.isUniversal at hu ⊢; rw [← ht.ty]; exact hu
    obtain ⟨_, _, _, rfl, rfl⟩ := (comp_act_universal hum).1 hact
    exact ⟨l, n, hl, ht, (comp_act_universal hu).2 ⟨by rw [h.right.acts.1]; exact .inl ha, hv, hvl, rfl, rfl⟩⟩
  | false =>
    obtain ⟨l', n', h1, h2, h3, h4, h5, h6⟩ := (twin_act h.ok h.res h.left h.right hm hl ht hv hvl (.inl hcons)).2 m' hact
    refine ⟨l', n', h2, h3, h6 ((h3.right _ h4).2 ⟨(h3.left _ h4).1 h5, fun hP => ?_⟩)⟩
    have hum : m.isUniversal = false := by unfold LocTree.isUniversal at hu ⊢; rw [← ht.ty]; exact hu
    have him : m.isInconsistent = false := by unfold LocTree.isInconsistent at hcons ⊢; rw [← ht.ty]; exact hcons
    obtain ⟨oy, hoy, iy, hcy⟩ := h.left.comp
    obtain ⟨_, e, he, hsrc, hact', t, htt, hcan, rfl, rfl⟩ := (comp_act hoy hcy hm hum (.inl him)).1 hact
    have hes : e.source = n := by rw [ht.idl] at hsrc; simpa using hsrc
    obtain ⟨w1, _, w3, _, w5⟩ := edge_twin (e' := e) h.ok (.nothing h.ok) h.left h.left (.refl e) htt htt
    have hn' : n' = e.target := by
      have := h3.idl.symm.trans w5.idl
      simpa using this
    subst hn'
    have hsy : e.sync = .input := by
      cases hsy : e.sync with
      | input => rfl
      | output =>
        have := (h.acts e he).2 hsy
        rw [hact'] at this
        exact absurd this (h.disjoint a ha)
    refine hinv.2 ?_
    rw [← hes]
    refine h.res.closed e he hsy ⟨hv, by rw [hes]; exact hinv.1, (fromEdge_guard (h.ok.guard_means he) htt hv).1 hcan.1, ?_, ?_⟩
    · rw [← w1]; exact (h3.left _ h4).1 h5
    · rw [← w1]; exact hP

theorem PruneRun.self (h : PruneRun c c' ins outs P y x) {m : LocTree F} (hm : (Sys.comp y).IsLoc m) {n : String}
    (hid : m.id = .simple n) : Twin c c (fun _ => ∅) n m m := by
  obtain ⟨n', ht⟩ := twin_of_ids h.ok (.nothing h.ok) h.left h.left hm hm rfl
  have := ht.idl.symm.trans hid
  rw [LocId.simple.injEq] at this
  exact this ▸ ht

/-- A set of states of the compiled component in which it can avoid its inconsistent locations is one of the
component. -/
theorem PruneRun.safe (h : PruneRun c c' ins outs P y x) (hconv : ∀ l, (Sys.comp y).IsLoc l → TimeConvex l)
    (huni : ∀ l ∈ c.locations, l.ty = .universal → ∀ e ∈ c.edges, e.source ≠ l.id) {S : LocTree F → Val → Prop}
    (hS : (Sys.comp y).ts.SafeSet ins outs S) :
    PruneCtx.Safe F c fun n v => ∃ m, (Sys.comp y).IsLoc m ∧ m.id = .simple n ∧ S m v := by
  obtain ⟨oy, hoy, iy, hcy⟩ := h.left.comp
  have hun : ∀ e ∈ c.edges, ∀ m, (Sys.comp y).IsLoc m → m.id = .simple e.source → m.isUniversal = false := by
    intro e he m hm hid
    obtain ⟨loc, h1, h2, h3⟩ := (h.self hm hid).loc
    by_contra hu
    have hu : m.ty = .universal := by simpa [LocTree.isUniversal] using hu
    exact huni loc h1 (by rw [h3, hu]) e he h2.symm
  refine ⟨?_, ?_, ?_, ?_⟩
  · rintro n v ⟨m, hm, hid, hs⟩
    obtain ⟨h1, h2⟩ := hS.valid m v hs
    exact ⟨h1, ((h.self hm hid).left v h1).1 h2⟩
  · rintro e he hsy v hpre ⟨m, hm, hid, hs⟩
    obtain ⟨t, ht⟩ := h.ok.compiles e he
    obtain ⟨w1, _, w3, _, w5⟩ := edge_twin (e' := e) h.ok (.nothing h.ok) h.left h.left (.refl e) ht ht
    refine ⟨t.target, w3, w5.idl, ?_⟩
    rw [← w1]
    have hvu : Valid (dim F) (runUpdates t.updates v) := by rw [w1]; exact runUpdates_valid (h.ok.ups he).2.1 hpre.1
    refine hS.input m v hs e.action ((h.acts e he).1 hsy) _ _ ?_
    refine (comp_act hoy hcy hm (hun e he m hm hid) (.inl (hS.consistent m v hs))).2
      ⟨.inl ((h.acts e he).1 hsy), e, he, hid.symm, rfl, t, ht, ⟨?_, ?_⟩, rfl, rfl⟩
    · exact (fromEdge_guard (h.ok.guard_means he) ht hpre.1).2 hpre.2.2.1
    · exact (w5.left _ hvu).2 (by rw [w1]; exact hpre.2.2.2.1)
  · rintro e he v ⟨m, hm, hid, hs⟩ d hd hin
    obtain ⟨h1, h2⟩ := hS.valid m v hs
    have hin' := ((h.self hm hid).left _ (delay_valid h1 hd)).2 hin
    exact ⟨m, hm, hid, hS.time m v hs d ⟨hd, fun d' q1 q2 => hconv m hm v d' d h1 h2 q1 q2 hin'⟩⟩
  · rintro e he v ⟨m, hm, hid, hs⟩
    obtain ⟨h1, h2⟩ := hS.valid m v hs
    rcases hS.progress m v hs with hp | ⟨d, hd, a, ha, l', v', hact, hs'⟩
    · refine .inl fun d hd => ?_
      exact ((h.self hm hid).left _ (delay_valid h1 hd)).1 ((hp d hd).2 d hd (le_refl _))
    · refine .inr ⟨d, hd.1, ?_⟩
      have hvd := delay_valid (n := dim F) h1 hd.1
      have hsd := hS.time m v hs d hd
      obtain ⟨_, o, ho, hsrc, hoa, t, ht, hcan, rfl, rfl⟩ :=
        (comp_act hoy hcy hm (hun e he m hm hid) (.inl (hS.consistent m v hs))).1 hact
      obtain ⟨w1, _, w3, _, w5⟩ := edge_twin (e' := o) h.ok (.nothing h.ok) h.left h.left (.refl o) ht ht
      have hos : o.source = e.source := by
        rw [hid] at hsrc; simpa using hsrc
      have hsy : o.sync = .output := by
        cases hsy : o.sync with
        | output => rfl
        | input =>
          have := (h.acts o ho).1 hsy
          rw [hoa] at this
          exact absurd ha (h.disjoint a this)
      have hvu : Valid (dim F) (runUpdates t.updates (delay (dim F) v d)) := by
        rw [w1]; exact runUpdates_valid (h.ok.ups ho).2.1 hvd
      refine ⟨o, ho, hos, hsy, ⟨hvd, ?_, (fromEdge_guard (h.ok.guard_means ho) ht hvd).1 hcan.1, ?_, trivial⟩,
        ⟨m, hm, hid, hsd⟩, t.target, w3, w5.idl, by rw [← w1]; exact hs'⟩
      · rw [hos]; exact ((h.self hm hid).left _ hvd).1 (hS.valid m _ hsd).2
      · rw [← w1]; exact (w5.left _ hvu).1 hcan.2

theorem PruneRun.within (h : PruneRun c c' ins outs P y x) {S : LocTree F → Val → Prop}
    (hS : (Sys.comp y).ts.SafeSet ins outs S)
    (hP : ∀ n v, (∃ m, (Sys.comp y).IsLoc m ∧ m.id = .simple n ∧ S m v) → v ∉ P n) {m : LocTree F} {v : Val}
    (hr : (Sys.comp y).ts.ReachWithin S m v) :
    S m v ∧ (Sys.comp y).IsLoc m ∧ ∃ l n, (Sys.comp x).IsLoc l ∧ Twin c c' P n m l ∧ v ∈ InvSet l ∧
      (Sys.comp x).ts.Reach l v := by
  have key : ∀ {n m l v}, Twin c c' P n m l → (Sys.comp y).IsLoc m → S m v → v ∈ InvSet l := by
    intro n m l v ht hm hs
    obtain ⟨h1, h2⟩ := hS.valid m v hs
    exact (ht.right v h1).2 ⟨(ht.left v h1).1 h2, hP n v ⟨m, hm, ht.idl, hs⟩⟩
  induction hr with
  | @init m h' hs =>
    obtain ⟨h1, h2⟩ := (h.left.initial h.ok.names h.initial m).1 h'
    obtain ⟨l, n, hl, ht⟩ := right_twin h.ok h.res h.left h.right h1
    have hin := key ht h1 hs
    refine ⟨hs, h1, l, n, hl, ht, hin, .init ((h.right.initial (h.res.names_nodup h.ok) h.initial' l).2 ⟨hl, ?_⟩) hin⟩
    unfold LocTree.isInitial at h2 ⊢; rw [ht.ty]; exact h2
  | @act m v a m' v' _ hact hs' ih =>
    obtain ⟨hs, hm, l, n, hl, ht, hin, hr⟩ := ih
    have hv := (hS.valid m v hs).1
    obtain ⟨l', n', h1, h2, h3, h4, h5, h6⟩ :=
      (twin_act h.ok h.res h.left h.right hm hl ht hv hin (.inl (h.consistent ht hv hin))).2 m' hact
    have hin' := key h3 h1 hs'
    exact ⟨hs', h1, l', n', h2, h3, hin', .act hr (h6 hin')⟩
  | @delay m v d _ hd hs' ih =>
    obtain ⟨hs, hm, l, n, hl, ht, hin, hr⟩ := ih
    refine ⟨hs', hm, l, n, hl, ht, key ht hm hs', .delay hr ⟨hd.1, fun d' q1 q2 => ?_⟩⟩
    exact key ht hm (hS.time m v hs d' ⟨q1, fun d2 r1 r2 => hd.2 d2 r1 (r2.trans q2)⟩)

theorem Prunable.run (hp : Prunable F c ins outs) {predt : F → F → F} {fuel : Nat}
    {order order' : List (LocId × LocTree F) → List (LocId × LocTree F)} (ho : ∀ l, (order l).Perm l)
    (ho' : ∀ l, (order' l).Perm l) {id : Nat} (hy : CompComp.compileWith order' c ins outs id = .ok y)
    (hx : prune (pruneWork predt fuel) order c ins outs = .ok x) :
    ∃ c' P, PruneRun c c' ins outs P y x ∧ (PruneCtx.PredtOk predt → ∀ K, PruneCtx.Safe F c K →
        (∀ l ∈ c.locations, l.ty = .inconsistent → ∀ v, ¬ K l.id v) → ∀ n v, K n v → v ∉ P n) := by
  have hok := hp.pruneOk ho' hy
  obtain ⟨c', P, h1, h2, h3, h4⟩ := prune_spec hok hx
  exact ⟨c', P, ⟨hok, h1, ⟨order', ho', id, hy⟩, ⟨order, ho, 0, h2⟩, h3, hp.acts, hp.initial⟩, h4⟩

/-! ## The theorems -/

/-- Pruning only removes: the pruned component has the same inputs and outputs, each of its states is a state of the
component in the location of the same name and type, its moves are moves of the component, and a move of the component
from such a state is lost only if it leads to a state that the invariant of the pruned location forbids. -/
theorem C69_restriction_partial (hp : Prunable F c ins outs) {predt : F → F → F} {fuel : Nat}
    {order order' : List (LocId × LocTree F) → List (LocId × LocTree F)} (ho : ∀ l, (order l).Perm l)
    (ho' : ∀ l, (order' l).Perm l) {id : Nat} (hy : CompComp.compileWith order' c ins outs id = .ok y)
    (hx : prune (pruneWork predt fuel) order c ins outs = .ok x) :
    (x.inputs = y.inputs ∧ x.outputs = y.outputs) ∧ ∀ l v, (Sys.comp x).ts.Reach l v →
      ∃ m, (Sys.comp y).ts.Reach m v ∧ m.id = l.id ∧ m.ty = l.ty ∧
        (∀ a l' v', (Sys.comp x).ts.Act l v a l' v' → ∃ m', (Sys.comp y).ts.Act m v a m' v' ∧ m'.id = l'.id) ∧
        (∀ a m' v', (Sys.comp y).ts.Act m v a m' v' → ∃ l', (Sys.comp x).IsLoc l' ∧ l'.id = m'.id ∧
          (v' ∈ InvSet l' → (Sys.comp x).ts.Act l v a l' v')) ∧
        (∀ d, TS.CanDelay l v d → TS.CanDelay m v d) := by
  obtain ⟨c', P, h, _⟩ := hp.run ho ho' hy hx
  refine ⟨⟨by rw [h.left.acts.1, h.right.acts.1], by rw [h.left.acts.2, h.right.acts.2]⟩, fun l v hr => ?_⟩
  obtain ⟨hv, hin, hl, m, n, hm, ht, hr'⟩ := h.reach hr
  refine ⟨m, hr', by rw [ht.idl, ht.idr], ht.ty.symm, fun a l' v' hact => ?_, fun a m' v' hact => ?_, fun d hd =>
    ⟨hd.1, fun d' q1 q2 => ?_⟩⟩
  · obtain ⟨m', n', _, _, h3, h4, _⟩ :=
      (twin_act h.ok h.res h.left h.right hm hl ht hv hin (.inl (h.consistent ht hv hin))).1 l' hact
    exact ⟨m', h4, by rw [h3.idl, h3.idr]⟩
  · obtain ⟨l', n', _, h2, h3, _, _, h6⟩ :=
      (twin_act h.ok h.res h.left h.right hm hl ht hv hin (.inl (h.consistent ht hv hin))).2 m' hact
    exact ⟨l', h2, by rw [h3.idl, h3.idr], h6⟩
  · have hvd := delay_valid (n := dim F) hv q1
    exact (ht.left _ hvd).2 ((ht.right _ hvd).1 (hd.2 d' q1 q2)).1

/-- The pruned component never gets into an inconsistent location. -/
theorem C69_consistent_partial (hp : Prunable F c ins outs) {predt : F → F → F} {fuel : Nat}
    {order order' : List (LocId × LocTree F) → List (LocId × LocTree F)} (ho : ∀ l, (order l).Perm l)
    (ho' : ∀ l, (order' l).Perm l) {id : Nat} (hy : CompComp.compileWith order' c ins outs id = .ok y)
    (hx : prune (pruneWork predt fuel) order c ins outs = .ok x) {l : LocTree F} {v : Val}
    (hr : (Sys.comp x).ts.Reach l v) : l.isInconsistent = false := by
  obtain ⟨c', P, h, _⟩ := hp.run ho ho' hy hx
  obtain ⟨hv, hin, _, _, _, _, ht, _⟩ := h.reach hr
  exact h.consistent ht hv hin

/-- Pruning never refuses an input the component accepts: from every state of the pruned component, every input move of
the component is possible, to the location of the same name. -/
theorem C69_inputs_partial (hp : Prunable F c ins outs) {predt : F → F → F} {fuel : Nat}
    {order order' : List (LocId × LocTree F) → List (LocId × LocTree F)} (ho : ∀ l, (order l).Perm l)
    (ho' : ∀ l, (order' l).Perm l) {id : Nat} (hy : CompComp.compileWith order' c ins outs id = .ok y)
    (hx : prune (pruneWork predt fuel) order c ins outs = .ok x) {l : LocTree F} {v : Val}
    (hr : (Sys.comp x).ts.Reach l v) {m : LocTree F} (hm : (Sys.comp y).IsLoc m) (hid : m.id = l.id) {a : String}
    (ha : a ∈ ins) {m' : LocTree F} {v' : Val} (hact : (Sys.comp y).ts.Act m v a m' v') :
    ∃ l', (Sys.comp x).ts.Act l v a l' v' ∧ l'.id = m'.id := by
  obtain ⟨c', P, h, _⟩ := hp.run ho ho' hy hx
  obtain ⟨hv, hin, hl, _⟩ := h.reach hr
  obtain ⟨n, ht⟩ := twin_of_ids h.ok h.res h.left h.right hm hl hid
  obtain ⟨l', n', _, h2, h3⟩ := h.input hm hl ht hv hin ha hact
  exact ⟨l', h3, by rw [h2.idl, h2.idr]⟩

/-- Pruning keeps what is safe: if the component can stay in a set of states, without relying on its environment and
without getting into an inconsistent location, every state it reaches inside that set is reached after pruning.  (For
invariants that are convex in time and components without edges from universal locations.  Of `predt` only that it
looks back in time.) -/
theorem C69_safe_kept_partial (hp : Prunable F c ins outs) {predt : F → F → F} (hpt : PruneCtx.PredtOk predt) {fuel : Nat}
    {order order' : List (LocId × LocTree F) → List (LocId × LocTree F)} (ho : ∀ l, (order l).Perm l)
    (ho' : ∀ l, (order' l).Perm l) {id : Nat} (hy : CompComp.compileWith order' c ins outs id = .ok y)
    (hx : prune (pruneWork predt fuel) order c ins outs = .ok x)
    (hconv : ∀ l, (Sys.comp y).IsLoc l → TimeConvex l)
    (huni : ∀ l ∈ c.locations, l.ty = .universal → ∀ e ∈ c.edges, e.source ≠ l.id) {S : LocTree F → Val → Prop}
    (hS : (Sys.comp y).ts.SafeSet ins outs S) {m : LocTree F} {v : Val} (hr : (Sys.comp y).ts.ReachWithin S m v) :
    ∃ l, (Sys.comp x).ts.Reach l v ∧ l.id = m.id := by
  obtain ⟨c', P, h, hK⟩ := hp.run ho ho' hy hx
  have hP := hK hpt _ (h.safe hconv huni hS) (by
    rintro l hl hty v ⟨m, hm, hid, hs⟩
    obtain ⟨loc, h1, h2, h3⟩ := (h.self hm hid).loc
    have : loc = l := eq_of_name h.ok.names h1 hl h2
    subst this
    have := hS.consistent m v hs
    unfold LocTree.isInconsistent at this
    rw [← h3, hty] at this
    simp at this)
  obtain ⟨_, _, l, n, _, ht, _, hr'⟩ := h.within hS hP hr
  exact ⟨l, hr', by rw [ht.idl, ht.idr]⟩

end

/-! ## A case where pruning removes some states and keeps others -/

def xyz3 : Decls := ⟨[], [("x", 1), ("y", 2), ("z", 3)]⟩

/-- Working, it can go wrong by an output it may avoid; daring, it is at the mercy of the environment. -/
def exRescue : Component := ⟨"A", xyz3,
  [⟨"L0", none, .initial, "NORMAL"⟩, ⟨"L1", some (.le (.var "x") (.int 4)), .normal, "NORMAL"⟩,
    ⟨"L2", none, .normal, "NORMAL"⟩, ⟨"Bad", none, .inconsistent, "NORMAL"⟩],
  [⟨"e0", "L0", "L1", .input, none, some [⟨"x", .int 0⟩], "work"⟩, ⟨"e1", "L1", "Bad", .output, none, none, "oops"⟩,
    ⟨"e2", "L1", "L0", .output, some (.ge (.var "x") (.int 2)), none, "done"⟩,
    ⟨"e3", "L0", "L2", .output, none, none, "dare"⟩,
    ⟨"e4", "L2", "Bad", .input, some (.ge (.var "y") (.int 1)), none, "kill"⟩]⟩

def lookBack : Fed4 → Fed4 → Fed4 := fun a _ => down a

theorem lookBack_ok : PruneCtx.PredtOk lookBack := fun _ _ _ h => h

def rescueIns : List String := ["work", "kill"]
def rescueOuts : List String := ["oops", "done", "dare"]

def rescueAll : CompComp Fed4 :=
  getOk (CompComp.compileWith id exRescue rescueIns rescueOuts 0) (by decide +kernel)
def rescuePruned : CompComp Fed4 :=
  getOk (prune (pruneWork lookBack 20) id exRescue rescueIns rescueOuts) (by decide +kernel)

theorem exRescue_prunable : Prunable Fed4 exRescue rescueIns rescueOuts where
  ok := Component.ok_of_okB (by decide)
  agree := by unfold Component.UpdatesAgree; decide
  naming := ⟨by decide, by decide⟩
  names := by decide
  acts := by decide
  initial := by decide

theorem rescueAll_compiled : Compiled exRescue rescueIns rescueOuts rescueAll :=
  ⟨id, fun _ => .refl _, 0, getOk_eq _⟩

theorem cond_x_le {v : Val} {n : ℤ} (hn : getIndices xyz3 (.var "x") (.int n) = .ok (1, 0, n)) :
    v ∈ condSet xyz3 (some (.le (.var "x") (.int n))) ↔ v 1 - v 0 ≤ n := by
  constructor
  · intro h; simpa [Ineq.Sat] using h 1 0 n hn
  · intro h i j k hk
    rw [hn] at hk
    cases hk
    simpa [Ineq.Sat] using h

theorem cond_x_ge {v : Val} {n : ℤ} (hn : getIndices xyz3 (.int n) (.var "x") = .ok (0, 1, -n)) :
    v ∈ condSet xyz3 (some (.ge (.var "x") (.int n))) ↔ v 0 - v 1 ≤ -n := by
  constructor
  · intro h
    simpa [Ineq.Sat] using h 0 1 (-n) hn
  · intro h i j k hk
    rw [hn] at hk
    cases hk
    simpa [Ineq.Sat] using h

/-- The states of the component that are at rest or at work. -/
def rescueSafe (l : LocTree Fed4) (v : Val) : Prop :=
  (Sys.comp rescueAll).IsLoc l ∧ Valid 4 v ∧ v ∈ InvSet l ∧ (l.id = .simple "L0" ∨ l.id = .simple "L1")

theorem rescue_loc {l : LocTree Fed4} (h : (Sys.comp rescueAll).IsLoc l) : ∃ loc ∈ exRescue.locations,
    l.id = .simple loc.id ∧ l.ty = loc.ty ∧
      ∀ v, Valid 4 v → (v ∈ InvSet l ↔ v ∈ condSet xyz3 loc.invariant) := by
  obtain ⟨loc, h1, h2⟩ := rescueAll_compiled.from h
  refine ⟨loc, h1, ?_, ?_, fun v hv => simple_inv (condMeans_code exRescue_prunable.ok.decls
    (exRescue_prunable.ok.invs loc h1)) h2 hv⟩
  all_goals obtain ⟨_, rfl, _⟩ := simple_spec h2
  · rfl
  · rfl

theorem rescueSafe_cases {l : LocTree Fed4} {v : Val} (h : rescueSafe l v) :
    (l.id = .simple "L0" ∧ l.ty = .initial ∧ ∀ w, Valid 4 w → w ∈ InvSet l) ∨
    (l.id = .simple "L1" ∧ l.ty = .normal ∧ ∀ w, Valid 4 w → (w ∈ InvSet l ↔ w 1 - w 0 ≤ 4)) := by
  obtain ⟨h1, h2, h3, h4⟩ := h
  obtain ⟨loc, q1, q2, q3, q4⟩ := rescue_loc h1
  rw [q2] at h4
  simp only [exRescue, List.mem_cons, List.not_mem_nil, or_false] at q1
  rcases q1 with rfl | rfl | rfl | rfl
  · exact .inl ⟨q2, q3, fun w hw => (q4 w hw).2 trivial⟩
  · refine .inr ⟨q2, q3, fun w hw => ?_⟩
    rw [q4 w hw]
    exact_mod_cast cond_x_le (by decide +kernel)
  · exact absurd h4 (by decide)
  · exact absurd h4 (by decide)

theorem rescue_safe : (Sys.comp rescueAll).ts.SafeSet rescueIns rescueOuts rescueSafe := by
  have hbase : ∀ l v, rescueSafe l v → l.isUniversal = false ∧ l.isInconsistent = false := by
    intro l v h
    rcases rescueSafe_cases h with ⟨_, h, _⟩ | ⟨_, h, _⟩ <;> (unfold LocTree.isUniversal LocTree.isInconsistent; rw [h]; decide)
  have hok := exRescue_prunable.pruneOk (y := rescueAll) (id := 0) (order := id) (fun _ => .refl _) (getOk_eq _)
  have hact : ∀ l v a l' v', rescueSafe l v → ((Sys.comp rescueAll).ts.Act l v a l' v' ↔ (a ∈ rescueIns ∨ a ∈ rescueOuts) ∧
      ∃ e ∈ exRescue.edges, LocId.simple e.source = l.id ∧ e.action = a ∧ ∃ t, Transition.fromEdge exRescue e = .ok t ∧
        CanTake t v ∧ l' = t.target ∧ v' = runUpdates t.updates v) := fun l v a l' v' h =>
    comp_act (order := id) (fun _ => .refl _) (getOk_eq _) h.1 (hbase l v h).1 (.inl (hbase l v h).2)
  have htgt : ∀ e ∈ exRescue.edges, ∀ t : Transition Fed4, Transition.fromEdge exRescue e = .ok t →
      (Sys.comp rescueAll).IsLoc t.target ∧ t.target.id = .simple e.target ∧
      (∀ v, Valid 4 v → Valid 4 (runUpdates t.updates v)) := by
    intro e he t ht
    obtain ⟨w1, _, w3, _, w5⟩ := edge_twin (e' := e) hok (.nothing hok) rescueAll_compiled rescueAll_compiled (.refl e) ht ht
    exact ⟨w3, w5.idl, fun v hv => by rw [w1]; exact runUpdates_valid (hok.ups he).2.1 hv⟩
  refine ⟨fun l v h => ⟨h.2.1, h.2.2.1⟩, fun l v h => (hbase l v h).2, ?_, ?_, ?_⟩
  · intro l v h a ha l' v' hs
    obtain ⟨_, e, he, hsrc, rfl, t, ht, hcan, rfl, rfl⟩ := (hact _ _ _ _ _ h).1 hs
    obtain ⟨w1, w2, w3⟩ := htgt e he t ht
    refine ⟨w1, w3 v h.2.1, hcan.2, ?_⟩
    have h4 := h.2.2.2
    rw [← hsrc] at h4
    rw [w2]
    clear hsrc ht w2 hs hact
    revert ha h4
    revert e
    decide
  · intro l v h d hd
    exact ⟨h.1, delay_valid h.2.1 hd.1, hd.2 d hd.1 (le_refl _), h.2.2.2⟩
  · intro l v h
    have hv := h.2.1
    rcases rescueSafe_cases h with ⟨_, _, h3⟩ | ⟨h1, _, h3⟩
    · exact .inl fun d hd => ⟨hd, fun d' q1 _ => h3 _ (delay_valid hv q1)⟩
    · right
      have hx := (h3 v hv).1 h.2.2.1
      have h0 : v 0 = 0 := hv.1
      have hdel : ∀ d, delay 4 v d 1 = v 1 + d := fun d => by simp [delay]
      have hdel0 : ∀ d, delay 4 v d 0 = v 0 := fun d => by simp [delay]
      refine ⟨max 0 (2 - v 1), ⟨le_max_left _ _, fun d' q1 q2 => ?_⟩, "done", by decide, ?_⟩
      · refine (h3 _ (delay_valid hv q1)).2 ?_
        show delay 4 v d' 1 - delay 4 v d' 0 ≤ 4
        rw [hdel, hdel0, h0]
        rcases max_cases 0 (2 - v 1) with ⟨q, _⟩ | ⟨q, _⟩ <;> rw [q] at q2 <;> linarith
      · obtain ⟨t, ht⟩ := hok.compiles ⟨"e2", "L1", "L0", .output, some (.ge (.var "x") (.int 2)), none, "done"⟩ (by decide)
        obtain ⟨w1, w2, w3⟩ := htgt _ (by decide) t ht
        have hvd : Valid 4 (delay 4 v (max 0 (2 - v 1))) := delay_valid hv (le_max_left _ _)
        have hin : ∀ w, Valid 4 w → w ∈ InvSet t.target := by
          intro w hw
          obtain ⟨loc, q1, q2, q3, q4⟩ := rescue_loc w1
          rw [w2] at q2
          simp only [exRescue, List.mem_cons, List.not_mem_nil, or_false] at q1
          rcases q1 with rfl | rfl | rfl | rfl
          · exact (q4 w hw).2 trivial
          all_goals exact absurd q2 (by decide)
        refine ⟨t.target, _, (hact _ _ _ _ _ ⟨h.1, hvd, ?_, h.2.2.2⟩).2 ⟨.inr (by decide), _, by decide, h1.symm, rfl, t, ht,
          ⟨?_, hin _ (w3 _ hvd)⟩, rfl, rfl⟩, w1, w3 _ hvd, hin _ (w3 _ hvd), .inl w2⟩
        · refine (h3 _ hvd).2 ?_
          rw [hdel, hdel0, h0]
          rcases max_cases 0 (2 - v 1) with ⟨q, _⟩ | ⟨q, _⟩ <;> rw [q] <;> linarith
        · refine (fromEdge_guard (hok.guard_means (by decide)) ht hvd).2 ((cond_x_ge (by decide +kernel)).2 ?_)
          rw [hdel, hdel0, h0]
          push_cast
          rcases max_cases 0 (2 - v 1) with ⟨q, _⟩ | ⟨q, _⟩ <;> rw [q] <;> linarith


theorem rescue_convex : ∀ l, (Sys.comp rescueAll).IsLoc l → TimeConvex l :=
  Sys.convex_comp exRescue_prunable.ok (order := id) (fun _ => .refl _)
    (getOk_eq (r := CompComp.compileWith id exRescue rescueIns rescueOuts 0) (by decide +kernel)) (by
      intro l hl g hg
      simp only [exRescue, List.mem_cons, List.not_mem_nil, or_false] at hl
      rcases hl with rfl | rfl | rfl | rfl <;> cases hg
      trivial)

/-- A location of a system that no valuation can be in. -/
def LocTree.empty (l : LocTree Fed4) : Bool := match l.inv with
  | some z => isEmpty z
  | none => false

theorem LocTree.not_mem_of_empty {l : LocTree Fed4} (h : l.empty = true) (v : Val) : v ∉ InvSet l := by
  intro hv
  unfold LocTree.empty at h
  cases hi : l.inv with
  | none => rw [hi] at h; cases h
  | some z =>
    rw [hi] at h
    have := hv z hi
    rw [(ZoneLib.isEmpty_iff z).1 h] at this
    exact this

/-- The hypotheses of the theorems are met, states at rest and at work are kept, and the location where the environment
could force an inconsistent location is never entered, although the component can enter it. -/
example : Prunable Fed4 exRescue rescueIns rescueOuts ∧
    CompComp.compileWith id exRescue rescueIns rescueOuts 0 = .ok rescueAll ∧
    prune (pruneWork lookBack 20) id exRescue rescueIns rescueOuts = .ok rescuePruned ∧
    PruneCtx.PredtOk lookBack ∧ (∀ l, (Sys.comp rescueAll).IsLoc l → TimeConvex l) ∧
    (Sys.comp rescueAll).ts.SafeSet rescueIns rescueOuts rescueSafe ∧
    (∃ l, (Sys.comp rescuePruned).ts.Reach l zeroVal ∧ l.id = .simple "L1") ∧
    (∃ l, (Sys.comp rescueAll).ts.Reach l zeroVal ∧ l.id = .simple "L2") ∧
    ∀ l v, (Sys.comp rescuePruned).ts.Reach l v → l.id ≠ .simple "L2" := by
  refine ⟨exRescue_prunable, getOk_eq _, getOk_eq _, lookBack_ok, rescue_convex, rescue_safe, ?_, ?_, ?_⟩
  · have hinit : (Sys.comp rescueAll).ts.initialLoc = .ok (some (.leaf (.simple "L0") none .initial)) := rfl
    have h0 : rescueSafe (.leaf (.simple "L0") none .initial) zeroVal :=
      ⟨((rescueAll_compiled.initial exRescue_prunable.names exRescue_prunable.initial _).1 hinit).1,
        zeroVal_ok (F := Fed4),
        by rintro i ⟨⟩, .inl rfl⟩
    have hok := exRescue_prunable.pruneOk (y := rescueAll) (id := 0) (order := id) (fun _ => .refl _) (getOk_eq _)
    obtain ⟨t, ht⟩ := hok.compiles ⟨"e0", "L0", "L1", .input, none, some [⟨"x", .int 0⟩], "work"⟩ (by decide)
    obtain ⟨w1, _, w3, _, w5⟩ := edge_twin (e' := _) hok (.nothing hok) rescueAll_compiled rescueAll_compiled (.refl _) ht ht
    have hz : runUpdates t.updates zeroVal = zeroVal := by
      have : t.updates = [⟨1, 0⟩] := by
        have : Edge.ups ⟨"e0", "L0", "L1", .input, none, some [⟨"x", .int 0⟩], "work"⟩ xyz3 = [⟨1, 0⟩] := by decide +kernel
        rw [w1]; exact this
      rw [this]
      funext i
      simp [runUpdates, assign, zeroVal]
    have hin : zeroVal ∈ InvSet t.target := by
      obtain ⟨loc, q1, q2, q3, q4⟩ := rescue_loc w3
      rw [w5.idl] at q2
      simp only [exRescue, List.mem_cons, List.not_mem_nil, or_false] at q1
      rcases q1 with rfl | rfl | rfl | rfl
      · exact absurd q2 (by decide)
      · refine (q4 _ (zeroVal_ok (F := Fed4))).2 ((cond_x_le (by decide +kernel)).2 ?_)
        norm_num [zeroVal]
      all_goals exact absurd q2 (by decide)
    have hact : (Sys.comp rescueAll).ts.Act (.leaf (.simple "L0") none .initial) zeroVal "work" t.target zeroVal :=
      (comp_act (order := id) (fun _ => .refl _) (getOk_eq _) h0.1 rfl (.inl rfl)).2 ⟨by decide, _, by decide, rfl, rfl,
        t, ht, ⟨(fromEdge_guard (hok.guard_means (by decide)) ht zeroVal_ok).2 trivial, by rw [hz]; exact hin⟩, rfl,
        hz.symm⟩
    have hS : rescueSafe t.target zeroVal := ⟨w3, zeroVal_ok (F := Fed4), hin, .inr w5.idl⟩
    obtain ⟨l, hl, hid⟩ := C69_safe_kept_partial exRescue_prunable lookBack_ok (fuel := 20) (order := id) (order' := id)
      (id := 0) (fun _ => .refl _) (fun _ => .refl _) (y := rescueAll) (x := rescuePruned) (getOk_eq _) (getOk_eq _)
      rescue_convex (by decide) rescue_safe (.act (.init hinit h0) hact hS)
    exact ⟨l, hl, by rw [hid, w5.idl]⟩
  · refine ⟨.leaf (.simple "L2") none .normal, .act (l := .leaf (.simple "L0") none .initial) (v := zeroVal) (a := "dare")
      (.init rfl (by rintro i ⟨⟩)) ⟨by decide +kernel, _, rfl, _, .head _, ⟨?_, by rintro i ⟨⟩⟩, rfl, rfl⟩, rfl⟩
    show zeroVal ∈ den (univ : Fed4)
    rw [den_univ]
    exact zeroVal_ok
  · intro l v hr hid
    obtain ⟨c', P, h, _⟩ := exRescue_prunable.run (order := id) (order' := id) (predt := lookBack) (fuel := 20) (id := 0)
      (y := rescueAll) (x := rescuePruned) (fun _ => .refl _) (fun _ => .refl _) (getOk_eq _) (getOk_eq _)
    obtain ⟨_, hin, ⟨p, hp, rfl⟩, _⟩ := h.reach hr
    have : ∀ p ∈ rescuePruned.locations, p.2.id = .simple "L2" → p.2.empty = true := by decide +kernel
    exact LocTree.not_mem_of_empty (this p hp hid) v hin

/-! ## What pruning gets wrong -/

/-- It can be killed from the fifth time unit on, and can get away before the third. -/
def exSnare : Component := ⟨"A", xyz3,
  [⟨"L0", none, .initial, "NORMAL"⟩, ⟨"Good", none, .normal, "NORMAL"⟩, ⟨"Bad", none, .inconsistent, "NORMAL"⟩],
  [⟨"e0", "L0", "Bad", .input, some (.ge (.var "x") (.int 5)), none, "kill"⟩,
    ⟨"e1", "L0", "Good", .output, some (.le (.var "x") (.int 3)), none, "save"⟩]⟩

def trapAll : CompComp Fed4 := getOk (CompComp.compileWith id exSnare ["kill"] ["save"] 0) (by decide +kernel)

theorem trap_any (predt : Fed4 → Fed4 → Fed4) :
    (prune (F := Fed4) (pruneWork predt 20) id exSnare ["kill"] ["save"]).toBool = true := by
  set_option maxRecDepth 100000 in
  rfl

/-- What is left of it, whatever `predt` does: it is not used, as the inconsistent location has no outputs. -/
def trapPruned (predt : Fed4 → Fed4 → Fed4) : CompComp Fed4 := getOk _ (trap_any predt)

theorem trapPruned_initial (predt : Fed4 → Fed4 → Fed4) :
    (match (trapPruned predt).initial with | some l => l.empty | none => false) = true := by
  set_option maxRecDepth 100000 in
  rfl

theorem exSnare_prunable : Prunable Fed4 exSnare ["kill"] ["save"] where
  ok := Component.ok_of_okB (by decide)
  agree := by unfold Component.UpdatesAgree; decide
  naming := ⟨by decide, by decide⟩
  names := by decide
  acts := by decide
  initial := by decide

/-- **C69 is violated (too much is removed)**: this component cannot be harmed where it starts, and can leave at once,
by an output, for a location where it is safe forever; pruning leaves it no state at all, because the way back in time
from the dangerous states takes no account of the outputs of the location they are in. -/
theorem C69_violated_trap (predt : Fed4 → Fed4 → Fed4) : Prunable Fed4 exSnare ["kill"] ["save"] ∧
    CompComp.compileWith id exSnare ["kill"] ["save"] 0 = .ok trapAll ∧
    prune (pruneWork predt 20) id exSnare ["kill"] ["save"] = .ok (trapPruned predt) ∧
    (∃ l g, (Sys.comp trapAll).ts.Reach l zeroVal ∧ l.isInitial = true ∧
      (∀ l' v', ¬ (Sys.comp trapAll).ts.Act l zeroVal "kill" l' v') ∧
      (Sys.comp trapAll).ts.Act l zeroVal "save" g zeroVal ∧
      ∃ S, (Sys.comp trapAll).ts.SafeSet ["kill"] ["save"] S ∧ S g zeroVal) ∧
    ∀ l v, ¬ (Sys.comp (trapPruned predt)).ts.Reach l v := by
  have hz : Valid 4 zeroVal := zeroVal_ok (F := Fed4)
  have hy : CompComp.compileWith id exSnare ["kill"] ["save"] 0 = .ok trapAll := getOk_eq _
  have hok := exSnare_prunable.pruneOk (y := trapAll) (id := 0) (order := id) (fun _ => .refl _) hy
  have hinit : (Sys.comp trapAll).ts.initialLoc = .ok (some (.leaf (.simple "L0") none .initial)) := rfl
  have hc : Compiled exSnare ["kill"] ["save"] trapAll := ⟨id, fun _ => .refl _, 0, hy⟩
  have hloc := ((hc.initial exSnare_prunable.names exSnare_prunable.initial _).1 hinit).1
  refine ⟨exSnare_prunable, hy, getOk_eq _, ⟨.leaf (.simple "L0") none .initial, .leaf (.simple "Good") none .normal,
    .init hinit (by rintro i ⟨⟩), rfl, ?_, ?_, fun l v => l = .leaf (.simple "Good") none .normal ∧ Valid 4 v, ?_, rfl, hz⟩, ?_⟩
  · intro l' v' hact
    obtain ⟨_, e, he, _, ha, t, ht, hcan, _⟩ :=
      (comp_act (order := id) (fun _ => .refl _) hy hloc rfl (.inl rfl)).1 hact
    have hg := (fromEdge_guard (hok.guard_means he) ht hz).1 hcan.1
    have he' : e.guard = some (.ge (.var "x") (.int 5)) := by
      revert ha
      clear hg hcan ht hact
      revert e
      decide
    rw [he'] at hg
    have := (cond_x_ge (by decide +kernel)).1 hg
    norm_num [zeroVal] at this
  · obtain ⟨t, ht⟩ := hok.compiles ⟨"e1", "L0", "Good", .output, some (.le (.var "x") (.int 3)), none, "save"⟩ (by decide)
    obtain ⟨w1, _, w3, _, w5⟩ := edge_twin (e' := _) hok (.nothing hok) hc hc (.refl _) ht ht
    have ht1 : t.target = .leaf (.simple "Good") none .normal :=
      hc.unique exSnare_prunable.names w3 ⟨(.simple "Good", .leaf (.simple "Good") none .normal), by
        show _ ∈ [_, _, _]
        exact .tail _ (.head _), rfl⟩ w5.idl
    have ht2 : t.updates = [] := by
      have : Edge.ups ⟨"e1", "L0", "Good", .output, some (.le (.var "x") (.int 3)), none, "save"⟩ xyz3 = [] := by
        decide +kernel
      rw [w1]; exact this
    refine (comp_act (order := id) (fun _ => .refl _) hy hloc rfl (.inl rfl)).2 ⟨by decide, _, by decide, rfl, rfl,
      t, ht, ⟨(fromEdge_guard (hok.guard_means (by decide)) ht hz).2 ((cond_x_le (by decide +kernel)).2 ?_), ?_⟩,
      ht1.symm, by rw [ht2]; rfl⟩
    · norm_num [zeroVal]
    · rw [ht1]; rintro i ⟨⟩
  · have hin : ∀ v : Val, v ∈ InvSet (F := Fed4) (.leaf (.simple "Good") none .normal) := by rintro v i ⟨⟩
    refine ⟨?_, ?_, ?_, ?_, ?_⟩
    · rintro l v ⟨rfl, hv⟩; exact ⟨hv, hin v⟩
    · rintro l v ⟨rfl, hv⟩; rfl
    · rintro l v ⟨rfl, hv⟩ a ha l' v' ⟨_, trans, hn, t, ht, _⟩
      have hk : a = "kill" := by simpa using ha
      subst hk
      have : (Sys.comp trapAll).ts.next (.leaf (.simple "Good") none .normal) "kill" = .ok [] := rfl
      rw [this] at hn
      cases hn
      cases ht
    · rintro l v ⟨rfl, hv⟩ d hd; exact ⟨rfl, delay_valid hv hd.1⟩
    · rintro l v ⟨rfl, hv⟩; exact .inl fun d hd => ⟨hd, fun d' _ _ => hin _⟩
  · intro l v hr
    have : ∃ l0, (trapPruned predt).initial = some l0 ∧ zeroVal ∈ InvSet l0 := by
      induction hr with
      | init h hv => exact ⟨_, Except.ok.inj h, hv⟩
      | act _ _ ih => exact ih
      | delay _ _ ih => exact ih
    obtain ⟨l0, h1, h2⟩ := this
    have := trapPruned_initial predt
    rw [h1] at this
    exact LocTree.not_mem_of_empty this _ h2

/-- It must leave its first location within five time units, and cannot.  Elsewhere it has an inconsistent location. -/
def exJammed : Component := ⟨"A", xyz3,
  [⟨"L0", some (.le (.var "x") (.int 5)), .initial, "NORMAL"⟩, ⟨"L1", none, .normal, "NORMAL"⟩,
    ⟨"Bad", none, .inconsistent, "NORMAL"⟩],
  [⟨"e0", "L1", "Bad", .output, none, none, "oops"⟩]⟩

/-- What is left of it. -/
def exJammedPruned : Component := ⟨"A", xyz3,
  [⟨"L0", some (.le (.var "x") (.int 5)), .initial, "NORMAL"⟩, ⟨"L1", none, .normal, "NORMAL"⟩,
    ⟨"Bad", some (.bool false), .inconsistent, "NORMAL"⟩], []⟩

theorem stuck_any (predt : Fed4 → Fed4 → Fed4) :
    prune (F := Fed4) (pruneWork predt 20) id exJammed [] ["oops"] = CompComp.compileWith id exJammedPruned [] ["oops"] 0 := by
  set_option maxRecDepth 100000 in
  rfl

def stuckPruned : CompComp Fed4 := getOk (CompComp.compileWith id exJammedPruned [] ["oops"] 0) (by decide +kernel)

/-- A component that must leave its first location within five time units, with all guards asking for ten. -/
theorem stuck_at_five {c : Component} {ins outs : List String} {x : CompComp Fed4} (hokc : c.Ok (dim Fed4))
    (hc : Compiled c ins outs x) (hd : c.decls = xyz3) (hn : (c.locations.map (·.id)).Nodup)
    (h1 : ∀ l ∈ c.locations, ∀ l' ∈ c.locations, l.ty = .initial → l'.ty = .initial → l = l')
    (hmem : ⟨"L0", some (.le (.var "x") (.int 5)), .initial, "NORMAL"⟩ ∈ c.locations)
    (hg : ∀ e ∈ c.edges, e.guard = some (.ge (.var "x") (.int 10))) :
    ∃ l v, (Sys.comp x).ts.Reach l v ∧ (∀ d, 0 < d → ¬ TS.CanDelay l v d) ∧
      ∀ a l' v', ¬ (Sys.comp x).ts.Act l v a l' v' := by
  have hz : Valid 4 zeroVal := zeroVal_ok (F := Fed4)
  obtain ⟨l, hl, hloc⟩ := hc.has hn hmem
  have hinv : ∀ v, Valid 4 v → (v ∈ InvSet l ↔ v 1 - v 0 ≤ 5) := by
    intro v hv
    have h1 := simple_inv (condMeans_code hokc.decls (hokc.invs _ hmem)) hl hv
    rw [h1, hd]
    exact_mod_cast cond_x_le (by decide +kernel)
  have hl1 : l.isInitial = true ∧ l.isUniversal = false ∧ l.isInconsistent = false := by
    obtain ⟨i, rfl, _⟩ := simple_spec hl
    exact ⟨rfl, rfl, rfl⟩
  have hdel : ∀ (v : Val) d, delay 4 v d 1 = v 1 + d := fun v d => by simp [delay]
  have hdel0 : ∀ (v : Val) d, delay 4 v d 0 = v 0 := fun v d => by simp [delay]
  have hdz : ∀ d, 0 ≤ d → (delay 4 zeroVal d ∈ InvSet l ↔ d ≤ 5) := by
    intro d hd
    rw [hinv _ (delay_valid hz hd), hdel, hdel0]
    norm_num [zeroVal]
  have h5 : Valid 4 (delay 4 zeroVal 5) := delay_valid hz (by norm_num)
  refine ⟨l, delay 4 zeroVal 5,
    .delay (.init ((hc.initial hn h1 l).2 ⟨hloc, hl1.1⟩) ((hinv _ hz).2 (by norm_num [zeroVal])))
      ⟨by norm_num, fun d' h1 h2 => (hdz d' h1).2 h2⟩, ?_, ?_⟩
  · intro d hd hcan
    have h1 := (hinv _ (delay_valid h5 hd.le)).1 (hcan.2 d hd.le (le_refl _))
    rw [hdel, hdel0, hdel, hdel0] at h1
    norm_num [zeroVal] at h1
    linarith
  · intro a l' v' hact
    obtain ⟨o, ho, id, hx⟩ := hc.comp
    obtain ⟨_, e, he, _, _, t, ht, hcan, _⟩ := (comp_act ho hx hloc hl1.2.1 (.inl hl1.2.2)).1 hact
    have h2 := (fromEdge_guard (condMeans_code hokc.decls (by rw [hg e he]; exact fun b hb => hokc.guards e he b (by rw [hg e he, hb]))) ht h5).1 hcan.1
    rw [hg e he, hd] at h2
    have h3 := (cond_x_ge (by decide +kernel)).1 h2
    rw [hdel, hdel0] at h3
    norm_num [zeroVal] at h3

/-- **C69 is violated (too little is removed)**: states in which time cannot pass and nothing can be done are left, if
no edge leads from their location to one that is known to be bad. -/
theorem C69_violated_stuck (predt : Fed4 → Fed4 → Fed4) : Prunable Fed4 exJammed [] ["oops"] ∧
    prune (pruneWork predt 20) id exJammed [] ["oops"] = .ok stuckPruned ∧
    ∃ l v, (Sys.comp stuckPruned).ts.Reach l v ∧ (∀ d, 0 < d → ¬ TS.CanDelay l v d) ∧
      ∀ a l' v', ¬ (Sys.comp stuckPruned).ts.Act l v a l' v' := by
  have hx : CompComp.compileWith id exJammedPruned [] ["oops"] 0 = .ok stuckPruned := getOk_eq _
  exact ⟨⟨Component.ok_of_okB (by decide), by unfold Component.UpdatesAgree; decide, ⟨by decide, by decide⟩, by decide,
    by decide, by decide⟩, (stuck_any predt).trans hx,
    stuck_at_five (Component.ok_of_okB (by decide)) ⟨id, fun _ => .refl _, 0, hx⟩ rfl (by decide) (by decide) (by decide)
      (by decide)⟩

/-- The same with an edge to the inconsistent location, and an output that comes too late. -/
def exTardy : Component := ⟨"A", xyz3,
  [⟨"L0", some (.le (.var "x") (.int 5)), .initial, "NORMAL"⟩, ⟨"L1", none, .normal, "NORMAL"⟩,
    ⟨"Bad", none, .inconsistent, "NORMAL"⟩],
  [⟨"e0", "L0", "Bad", .output, none, none, "oops"⟩,
    ⟨"e1", "L0", "L1", .output, some (.ge (.var "x") (.int 10)), none, "out"⟩]⟩

/-- What is left of it. -/
def exTardyPruned : Component := ⟨"A", xyz3,
  [⟨"L0", some (.le (.var "x") (.int 5)), .initial, "NORMAL"⟩, ⟨"L1", none, .normal, "NORMAL"⟩,
    ⟨"Bad", some (.bool false), .inconsistent, "NORMAL"⟩],
  [⟨"e1", "L0", "L1", .output, some (.ge (.var "x") (.int 10)), none, "out"⟩]⟩

theorem late_any (predt : Fed4 → Fed4 → Fed4) :
    prune (F := Fed4) (pruneWork predt 20) id exTardy [] ["oops", "out"] =
      CompComp.compileWith id exTardyPruned [] ["oops", "out"] 0 := by
  set_option maxRecDepth 100000 in
  rfl

def latePruned : CompComp Fed4 := getOk (CompComp.compileWith id exTardyPruned [] ["oops", "out"] 0) (by decide +kernel)

/-- **C69 is violated (too little is removed)**: in a location with an edge to a bad one, states are left in which time
cannot pass and nothing can be done, if an output would be possible at a time the invariant does not allow. -/
theorem C69_violated_late (predt : Fed4 → Fed4 → Fed4) : Prunable Fed4 exTardy [] ["oops", "out"] ∧
    prune (pruneWork predt 20) id exTardy [] ["oops", "out"] = .ok latePruned ∧
    ∃ l v, (Sys.comp latePruned).ts.Reach l v ∧ (∀ d, 0 < d → ¬ TS.CanDelay l v d) ∧
      ∀ a l' v', ¬ (Sys.comp latePruned).ts.Act l v a l' v' := by
  have hx : CompComp.compileWith id exTardyPruned [] ["oops", "out"] 0 = .ok latePruned := getOk_eq _
  exact ⟨⟨Component.ok_of_okB (by decide), by unfold Component.UpdatesAgree; decide, ⟨by decide, by decide⟩, by decide,
    by decide, by decide⟩, (late_any predt).trans hx,
    stuck_at_five (Component.ok_of_okB (by decide)) ⟨id, fun _ => .refl _, 0, hx⟩ rfl (by decide) (by decide) (by decide)
      (by decide)⟩

end Reveaal
