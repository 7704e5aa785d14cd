import Verif.Lemmas.GuardOf
import Verif.Lemmas.Display
import Verif.Lemmas.Collect
import Verif.Props.C28

/-!
# A saved component behaves like the system it was saved from
-/

namespace Reveaal
open ZoneLib

/-! ## Clock names -/

theorem hmInsert_snd {K V : Type} [DecidableEq K] {k : K} {v : V} {m : List (K × V)} {p : K × V}
    (h : p ∈ hmInsert k v m) : p ∈ m ∨ p = (k, v) := by
  induction m with
  | nil => exact .inr (List.mem_singleton.1 h)
  | cons q m ih =>
    obtain ⟨k', v'⟩ := q
    unfold hmInsert at h
    split at h
    · rcases List.mem_cons.1 h with h | h
      · exact .inr h
      · exact .inl (.tail _ h)
    · rcases List.mem_cons.1 h with h | h
      · exact .inl (h ▸ .head _)
      · rcases ih h with h | h
        · exact .inl (.tail _ h)
        · exact .inr h

theorem hmInsert_keys_nodup {K V : Type} [DecidableEq K] {k : K} {v : V} {m : List (K × V)}
    (h : (m.map (·.1)).Nodup) : ((hmInsert k v m).map (·.1)).Nodup := by
  induction m with
  | nil => simp [hmInsert]
  | cons q m ih =>
    obtain ⟨k', v'⟩ := q
    rw [List.map_cons, List.nodup_cons] at h
    unfold hmInsert
    split
    · next he => rw [List.map_cons, List.nodup_cons, ← he]; exact h
    · next he =>
      rw [List.map_cons, List.nodup_cons]
      refine ⟨fun hm => ?_, ih h.2⟩
      obtain ⟨p, hp, he'⟩ := List.mem_map.1 hm
      rcases hmInsert_snd hp with hp | rfl
      · exact h.1 (List.mem_map.2 ⟨p, hp, he'⟩)
      · exact he he'.symm

theorem addClock_snd {k : Nat} {m : List (String × Nat)} {p q : String × Nat} (h : q ∈ addClock k m p) :
    q ∈ m ∨ q.2 = p.2 := by
  unfold addClock at h
  split at h
  · rcases hmInsert_snd h with h | rfl
    · exact .inl h
    · exact .inr rfl
  · rcases hmInsert_snd h with h | rfl
    · exact .inl h
    · exact .inr rfl

theorem addClock_nodup {k : Nat} {m : List (String × Nat)} {p : String × Nat} (h : (m.map (·.1)).Nodup) :
    ((addClock k m p).map (·.1)).Nodup := by
  unfold addClock
  split <;> exact hmInsert_keys_nodup h

theorem mergeClocks_spec : ∀ (k : Nat) (ds : List Decls) (m : List (String × Nat)), (m.map (·.1)).Nodup →
    ((mergeClocks k ds m).map (·.1)).Nodup ∧
      ∀ q ∈ mergeClocks k ds m, q ∈ m ∨ ∃ d ∈ ds, q.2 ∈ d.clocks.map (·.2)
  | _, [], m, h => ⟨h, fun q hq => .inl hq⟩
  | k, d :: ds, m, h => by
    have key : ∀ (cs m : List (String × Nat)), (m.map (·.1)).Nodup → ((cs.foldl (addClock k) m).map (·.1)).Nodup ∧
        ∀ q ∈ cs.foldl (addClock k) m, q ∈ m ∨ q.2 ∈ cs.map (·.2) := by
      intro cs
      induction cs with
      | nil => intro m h; exact ⟨h, fun q hq => .inl hq⟩
      | cons p cs ih =>
        intro m h
        rw [List.foldl_cons]
        obtain ⟨h1, h2⟩ := ih _ (addClock_nodup (k := k) (p := p) h)
        refine ⟨h1, fun q hq => ?_⟩
        rcases h2 q hq with hq | hq
        · rcases addClock_snd hq with hq | hq
          · exact .inl hq
          · exact .inr (by rw [hq]; simp)
        · exact .inr (.tail _ hq)
    obtain ⟨h1, h2⟩ := key d.clocks m h
    obtain ⟨h3, h4⟩ := mergeClocks_spec (k + 1) ds _ h1
    refine ⟨h3, fun q hq => ?_⟩
    rcases h4 q hq with hq | ⟨d', hd', hq⟩
    · rcases h2 q hq with hq | hq
      · exact .inl hq
      · exact .inr ⟨d, .head _, hq⟩
    · exact .inr ⟨d', .tail _ hd', hq⟩

/-- The names of the clock map are distinct, and its clocks are declared ones. -/
theorem clockMap_spec {ds : List Decls} (h : ∀ d ∈ ds, (d.clocks.map (·.1)).Nodup) :
    ((clockMap ds).map (·.1)).Nodup ∧ ∀ q ∈ clockMap ds, ∃ d ∈ ds, q.2 ∈ d.clocks.map (·.2) := by
  unfold clockMap
  split
  · next d => exact ⟨h d (.head _), fun q hq => ⟨d, .head _, List.mem_map.2 ⟨q, hq, rfl⟩⟩⟩
  · obtain ⟨h1, h2⟩ := mergeClocks_spec 0 ds [] (by simp)
    refine ⟨h1, fun q hq => ?_⟩
    rcases h2 q hq with hq | hq
    · cases hq
    · exact hq

variable {F : Type} [ZoneLib F]

omit [ZoneLib F] in
theorem Sys.decls_clocks : ∀ (s : Sys F) {i : Nat}, (∃ d ∈ s.decls, i ∈ d.clocks.map (·.2)) ↔ i ∈ s.clocks
  | .comp c, i => by simp [Sys.decls, Sys.clocks]
  | .composition l r _ _ _ _ _, i => by
    have h1 := l.decls_clocks (i := i)
    have h2 := r.decls_clocks (i := i)
    rw [Sys.decls, Sys.clocks, List.mem_append, ← h1, ← h2]
    constructor
    · rintro ⟨d, hd, h⟩
      rcases List.mem_append.1 hd with hd | hd
      · exact .inl ⟨d, hd, h⟩
      · exact .inr ⟨d, hd, h⟩
    · rintro (⟨d, hd, h⟩ | ⟨d, hd, h⟩)
      · exact ⟨d, List.mem_append_left _ hd, h⟩
      · exact ⟨d, List.mem_append_right _ hd, h⟩
  | .conjunction l r _ _, i => by
    have h1 := l.decls_clocks (i := i)
    have h2 := r.decls_clocks (i := i)
    rw [Sys.decls, Sys.clocks, List.mem_append, ← h1, ← h2]
    constructor
    · rintro ⟨d, hd, h⟩
      rcases List.mem_append.1 hd with hd | hd
      · exact .inl ⟨d, hd, h⟩
      · exact .inr ⟨d, hd, h⟩
    · rintro (⟨d, hd, h⟩ | ⟨d, hd, h⟩)
      · exact ⟨d, List.mem_append_left _ hd, h⟩
      · exact ⟨d, List.mem_append_right _ hd, h⟩
  | .quotient l r _ _ clock _, i => by
    have h1 := l.decls_clocks (i := i)
    have h2 := r.decls_clocks (i := i)
    rw [Sys.decls, Sys.clocks, List.mem_append, List.mem_append, ← h1, ← h2]
    constructor
    · rintro ⟨d, hd, h⟩
      rcases List.mem_append.1 hd with hd | hd
      · rcases List.mem_append.1 hd with hd | hd
        · exact .inl (.inl ⟨d, hd, h⟩)
        · exact .inl (.inr ⟨d, hd, h⟩)
      · rw [List.mem_singleton.1 hd] at h
        exact .inr h
    · rintro ((⟨d, hd, h⟩ | ⟨d, hd, h⟩) | h)
      · exact ⟨d, by simp [hd], h⟩
      · exact ⟨d, by simp [hd], h⟩
      · exact ⟨_, List.mem_append_right _ (.head _), h⟩

omit [ZoneLib F] in
/-- The declaration tables of the system are hash maps: names are distinct within one table. -/
def Sys.NamesDistinct (s : Sys F) : Prop := ∀ d ∈ s.decls, (d.clocks.map (·.1)).Nodup

theorem Sys.Accepted.naming {s : Sys F} (hs : s.Accepted) (hd : s.NamesDistinct) :
    GoodNaming (clockMap s.decls) ∧ ∀ p ∈ clockMap s.decls, p.2 < dim F := by
  obtain ⟨h1, h2⟩ := clockMap_spec hd
  have h3 : ∀ p ∈ clockMap s.decls, 0 < p.2 ∧ p.2 < dim F := fun p hp =>
    hs.good.clockDim _ (s.decls_clocks.1 (h2 p hp))
  exact ⟨⟨h1, fun p hp => (h3 p hp).1⟩, fun p hp => (h3 p hp).2⟩

/-! ## Edges -/

theorem saveEdgesOf_mem {ts : TS F} {naming : List (String × Nat)} {l : LocTree F} {sync : SyncType}
    {acts : List String} {es : List Edge} (h : saveEdgesOf ts naming l sync acts = .ok es) :
    (∀ a ∈ acts, ∃ trans, ts.next l a = .ok trans ∧ ∀ t ∈ trans, ∃ o, saveEdge naming l sync a t = .ok o ∧
      ∀ e, o = some e → e ∈ es) ∧
    ∀ e ∈ es, ∃ a ∈ acts, ∃ trans, ts.next l a = .ok trans ∧ ∃ t ∈ trans, saveEdge naming l sync a t = .ok (some e) := by
  unfold saveEdgesOf at h
  obtain ⟨groups, h1, h⟩ := bind_ok h
  cases h
  have h1 := mapM_ok.1 h1
  constructor
  · intro a ha
    obtain ⟨g, hg, hga⟩ := forall2_mem_left h1 a ha
    obtain ⟨trans, h2, hga⟩ := bind_ok hga
    obtain ⟨os, h3, hga⟩ := bind_ok hga
    cases hga
    refine ⟨trans, h2, fun t ht => ?_⟩
    obtain ⟨o, ho, hot⟩ := forall2_mem_left (mapM_ok.1 h3) t ht
    refine ⟨o, hot, fun e he => ?_⟩
    exact List.mem_flatten.2 ⟨_, hg, List.mem_filterMap.2 ⟨o, ho, he⟩⟩
  · intro e he
    obtain ⟨g, hg, heg⟩ := List.mem_flatten.1 he
    obtain ⟨a, ha, hga⟩ := forall2_mem_right h1 g hg
    obtain ⟨trans, h2, hga⟩ := bind_ok hga
    obtain ⟨os, h3, hga⟩ := bind_ok hga
    cases hga
    obtain ⟨o, ho, heo⟩ := List.mem_filterMap.1 heg
    obtain ⟨t, ht, hot⟩ := forall2_mem_right (mapM_ok.1 h3) o ho
    have heo : o = some e := heo
    exact ⟨a, ha, trans, h2, t, ht, by rw [hot, heo]⟩

theorem saveEdges_mem {ts : TS F} {naming : List (String × Nat)} {ord : ActionOrder F} {l : LocTree F} {es : List Edge}
    (h : saveEdges ts naming ord l = .ok es) :
    (∀ a ∈ (ord l).1 ++ (ord l).2, ∃ trans, ts.next l a = .ok trans ∧ ∀ t ∈ trans, ∃ sync o,
      saveEdge naming l sync a t = .ok o ∧ ∀ e, o = some e → e ∈ es) ∧
    ∀ e ∈ es, ∃ sync, ∃ a ∈ (ord l).1 ++ (ord l).2, ∃ trans, ts.next l a = .ok trans ∧ ∃ t ∈ trans,
      saveEdge naming l sync a t = .ok (some e) := by
  unfold saveEdges at h
  obtain ⟨ins, h1, h⟩ := bind_ok h
  obtain ⟨outs, h2, h⟩ := bind_ok h
  cases h
  obtain ⟨i1, i2⟩ := saveEdgesOf_mem h1
  obtain ⟨o1, o2⟩ := saveEdgesOf_mem h2
  constructor
  · intro a ha
    rcases List.mem_append.1 ha with ha | ha
    · obtain ⟨trans, hn, ht⟩ := i1 a ha
      refine ⟨trans, hn, fun t htt => ?_⟩
      obtain ⟨o, ho, he⟩ := ht t htt
      exact ⟨_, o, ho, fun e hoe => List.mem_append_left _ (he e hoe)⟩
    · obtain ⟨trans, hn, ht⟩ := o1 a ha
      refine ⟨trans, hn, fun t htt => ?_⟩
      obtain ⟨o, ho, he⟩ := ht t htt
      exact ⟨_, o, ho, fun e hoe => List.mem_append_right _ (he e hoe)⟩
  · intro e he
    rcases List.mem_append.1 he with he | he
    · obtain ⟨a, ha, r⟩ := i2 e he
      exact ⟨_, a, List.mem_append_left _ ha, r⟩
    · obtain ⟨a, ha, r⟩ := o2 e he
      exact ⟨_, a, List.mem_append_right _ ha, r⟩

/-- What the edge saved for a transition looks like. -/
theorem saveEdge_spec {naming : List (String × Nat)} {l : LocTree F} {sync : SyncType} {a : String}
    {t : Transition F} {o : Option Edge} (h : saveEdge naming l sync a t = .ok o) :
    (o = none → fromDisjunction (minimal t.guard) naming = .ok (some (.bool false))) ∧
    ∀ e, o = some e → e.source = l.id.display ∧ e.target = t.target.id.display ∧ e.sync = sync ∧ e.action = a ∧
      e.id = t.id.display ∧
      fromDisjunction (minimal t.guard) naming = .ok e.guard ∧ e.guard ≠ some (.bool false) ∧
      t.updates.mapM (CUpdate.asUpdate naming) = .ok (e.update.getD []) ∧ e.update ≠ some [] := by
  unfold saveEdge Transition.renamedGuard at h
  obtain ⟨g, h1, h⟩ := bind_ok h
  split at h
  · next hg => cases h; exact ⟨fun _ => by rw [h1, hg], by rintro e ⟨⟩⟩
  · next hg =>
    obtain ⟨us, h2, h⟩ := bind_ok h
    cases h
    refine ⟨(by rintro ⟨⟩), ?_⟩
    rintro e ⟨⟩
    refine ⟨rfl, rfl, rfl, rfl, rfl, h1, hg, ?_⟩
    unfold Transition.renamedUpdates at h2
    obtain ⟨us', h3, h2⟩ := bind_ok h2
    cases us' with
    | nil => cases h2; exact ⟨h3, by simp⟩
    | cons u us' => cases h2; exact ⟨h3, by simp⟩

theorem asUpdate_compile {naming : List (String × Nat)} (hg : GoodNaming naming) {cus : List CUpdate}
    {us : List Update} (h : cus.mapM (CUpdate.asUpdate naming) = .ok us) {cus' : List CUpdate}
    (h' : us.mapM (CUpdate.compile ⟨[], naming⟩) = .ok cus') : cus' = cus := by
  replace h := mapM_ok.1 h
  replace h' := mapM_ok.1 h'
  induction h generalizing cus' with
  | nil => cases h'; rfl
  | @cons cu u cus us hu _ ih =>
    cases h' with
    | @cons _ cu' _ cus'' hu' hf =>
      rw [ih hf]
      congr 1
      unfold CUpdate.asUpdate at hu
      cases hl : (invertNaming naming).lookup cu.clock with
      | none => rw [hl] at hu; cases hu
      | some n =>
        rw [hl] at hu
        cases hu
        have := invertNaming_some hg hl
        unfold CUpdate.compile at hu'
        simp only [Decls.clockIndex, this, Except.ok.injEq] at hu'
        exact hu'.symm

/-! ## Locations -/

theorem saveLocation_spec {naming : List (String × Nat)} {l : LocTree F} {loc : Location}
    (h : saveLocation naming l = .ok loc) : loc.id = l.id.display ∧
      loc.ty = (if l.isInitial then .initial else .normal) ∧ (l.inv = none → loc.invariant = none) ∧
      ∀ z, l.inv = some z → fromDisjunction (minimal z) naming = .ok loc.invariant := by
  unfold saveLocation at h
  cases hi : l.inv with
  | none =>
    rw [hi] at h
    cases h
    exact ⟨rfl, rfl, fun _ => rfl, by rintro z ⟨⟩⟩
  | some z =>
    rw [hi] at h
    obtain ⟨inv, h1, h⟩ := bind_ok h
    cases h
    refine ⟨rfl, rfl, (by rintro ⟨⟩), ?_⟩
    rintro z ⟨⟩
    exact h1

/-- A saved location, compiled again, has the same invariant. -/
theorem saveLocation_inv {naming : List (String × Nat)} (hg : GoodNaming naming) (hdim : ∀ p ∈ naming, p.2 < dim F)
    {l m : LocTree F} {loc : Location} (h : saveLocation naming l = .ok loc)
    (hm : LocTree.simple ⟨[], naming⟩ loc = .ok m) {v : Val} (hv : Valid (dim F) v) : v ∈ InvSet l ↔ v ∈ InvSet m := by
  obtain ⟨_, _, h1, h2⟩ := saveLocation_spec h
  obtain ⟨inv, rfl, h3, h4⟩ := simple_spec hm
  unfold InvSet
  cases hi : l.inv with
  | none =>
    rw [h3 (h1 hi)]
    simp [LocTree.inv]
  | some z =>
    have hgen := h2 z hi
    cases hli : loc.invariant with
    | none =>
      rw [h3 hli]
      rw [hli] at hgen
      have : den (univ : F) = den z := generated_exact hg hdim hgen rfl
      simp only [Set.mem_ofPred_eq, Option.some.injEq, forall_eq', LocTree.inv, reduceCtorEq, false_implies,
        implies_true, iff_true]
      rw [← this, den_univ]; exact hv
    | some e =>
      obtain ⟨z', hz', rfl⟩ := h4 e hli
      rw [hli] at hgen
      have : den z' = den z := generated_exact hg hdim hgen hz'
      simp only [Set.mem_ofPred_eq, Option.some.injEq, forall_eq', LocTree.inv, this]

/-! ## The saved component -/

/-- `c` consists of the locations in `trees` and their transitions, up to the names of edges. -/
structure SavedAs (s : Sys F) (ord : ActionOrder F) (trees : List (LocTree F)) (c : Component) : Prop where
  decls : c.decls = ⟨[], clockMap s.decls⟩
  locs : List.Forall₂ (fun l loc => saveLocation (clockMap s.decls) l = .ok loc) trees c.locations
  edges : ∀ l ∈ trees, ∃ es, saveEdges s.ts (clockMap s.decls) ord l = .ok es ∧
    ∀ e ∈ es, ∃ id, { e with id := id } ∈ c.edges
  origin : ∀ e ∈ c.edges, ∃ l ∈ trees, ∃ es, saveEdges s.ts (clockMap s.decls) ord l = .ok es ∧
    ∃ id, { e with id := id } ∈ es

theorem combineComponents_spec {s : Sys F} {ord : ActionOrder F} {strategy : PruningStrategy} {c : Component}
    (h : combineComponents s ord strategy = .ok c) : ∃ trees, collectLocations s.ts ord strategy = .ok trees ∧
      SavedAs s ord trees c := by
  unfold combineComponents at h
  obtain ⟨trees, h1, h⟩ := bind_ok h
  obtain ⟨ess, h2, h⟩ := bind_ok h
  obtain ⟨locs, h3, h⟩ := bind_ok h
  cases h
  have h2 := mapM_ok.1 h2
  refine ⟨trees, h1, rfl, mapM_ok.1 h3, fun l hl => ?_, fun e he => ?_⟩
  · obtain ⟨es, hes, h4⟩ := forall2_mem_left h2 l hl
    exact ⟨es, h4, fun e he => ⟨e.id, List.mem_flatten.2 ⟨es, hes, he⟩⟩⟩
  · obtain ⟨es, hes, hee⟩ := List.mem_flatten.1 he
    obtain ⟨l, hl, h4⟩ := forall2_mem_right h2 es hes
    exact ⟨l, hl, es, h4, e.id, hee⟩

omit [ZoneLib F] in
theorem mem_remakeEdgeIds {c : Component} {e : Edge} (h : e ∈ c.remakeEdgeIds.edges) :
    ∃ id, { e with id := id } ∈ c.edges := by
  unfold Component.remakeEdgeIds at h
  simp only [List.mem_mapIdx] at h
  obtain ⟨i, hi, rfl⟩ := h
  exact ⟨c.edges[i].id, List.getElem_mem hi⟩

omit [ZoneLib F] in
theorem remakeEdgeIds_mem {c : Component} {e : Edge} (h : e ∈ c.edges) :
    ∃ id, { e with id := id } ∈ c.remakeEdgeIds.edges := by
  obtain ⟨i, hi, rfl⟩ := List.getElem_of_mem h
  refine ⟨"E" ++ toString i, ?_⟩
  unfold Component.remakeEdgeIds
  simp only [List.mem_mapIdx]
  exact ⟨i, hi, rfl⟩

theorem SavedAs.remake {s : Sys F} {ord : ActionOrder F} {trees : List (LocTree F)} {c : Component} {name : String}
    (h : SavedAs s ord trees c) : SavedAs s ord trees ({ c with name := name } : Component).remakeEdgeIds := by
  refine ⟨h.decls, h.locs, fun l hl => ?_, fun e he => ?_⟩
  · obtain ⟨es, h1, h2⟩ := h.edges l hl
    refine ⟨es, h1, fun e he => ?_⟩
    obtain ⟨id, hid⟩ := h2 e he
    obtain ⟨id', hid'⟩ := remakeEdgeIds_mem (c := { c with name := name }) hid
    exact ⟨id', hid'⟩
  · obtain ⟨id, hid⟩ := mem_remakeEdgeIds he
    obtain ⟨l, hl, es, h1, id', h2⟩ := h.origin { e with id := id } hid
    exact ⟨l, hl, es, h1, id', h2⟩

/-- The location of the compiled component that a location of the system was saved as. -/
def SavedTo (s : Sys F) (trees : List (LocTree F)) (x : CompComp F) (l m : LocTree F) : Prop :=
  l ∈ trees ∧ (Sys.comp x).IsLoc m ∧ ∃ loc, saveLocation (clockMap s.decls) l = .ok loc ∧
    LocTree.simple ⟨[], clockMap s.decls⟩ loc = .ok m

/-- A transition of the system and the compiled saved edge can be taken in the same way. -/
theorem saved_canTake {naming : List (String × Nat)} (hg : GoodNaming naming)
    (hdim : ∀ p ∈ naming, p.2 < dim F) {c : Component} (hd : c.decls = ⟨[], naming⟩)
    {l : LocTree F} {sync : SyncType} {a : String} {t : Transition F} {e : Edge}
    (hsave : saveEdge naming l sync a t = .ok (some e)) {id : String} {t' : Transition F}
    (ht' : Transition.fromEdge c { e with id := id } = .ok t') {loc : Location}
    (hloc : saveLocation naming t.target = .ok loc) (htgt : LocTree.simple c.decls loc = .ok t'.target)
    (hupd : UpdatesOk t.updates (dim F)) {v : Val} (hv : Valid (dim F) v) :
    t'.updates = t.updates ∧ (CanTake t v ↔ CanTake t' v) := by
  obtain ⟨_, h2⟩ := saveEdge_spec hsave
  obtain ⟨_, _, _, _, _, hgd, _, hus, hus'⟩ := h2 e rfl
  obtain ⟨_, _, u1, u2, g1, g2⟩ := fromEdge_spec ht'
  rw [hd] at u2 g2 htgt
  have hu : t'.updates = t.updates := by
    cases hue : e.update with
    | none =>
      rw [hue] at hus
      rw [u1 hue]
      exact asUpdate_compile hg hus rfl
    | some us =>
      rw [hue] at hus
      exact asUpdate_compile hg hus (u2 us hue)
  have hguard : den t'.guard = den t.guard := by
    cases hge : e.guard with
    | none =>
      rw [hge] at hgd
      rw [g1 hge]
      exact generated_exact hg hdim hgd rfl
    | some g =>
      rw [hge] at hgd
      exact generated_exact hg hdim hgd (g2 g hge)
  refine ⟨hu, ?_⟩
  unfold CanTake
  rw [hu, hguard, saveLocation_inv hg hdim hloc htgt (runUpdates_valid hupd hv)]

/-- A saved component is one that the tool can work with. -/
theorem SavedAs.ok {s : Sys F} (hs : s.Accepted) (hd : s.NamesDistinct) {ord : ActionOrder F} (ho : ord.For s)
    {trees : List (LocTree F)} (hloc : ∀ l ∈ trees, s.IsLoc l) {c : Component} (hc : SavedAs s ord trees c) :
    c.Ok (dim F) := by
  obtain ⟨hg, hdim⟩ := hs.naming hd
  have edge : ∀ e ∈ c.edges, ∃ (l : LocTree F) (sync : SyncType) (a : String) (t : Transition F) (id : String),
      UpdatesOk t.updates (dim F) ∧ saveEdge (clockMap s.decls) l sync a t = .ok (some { e with id := id }) := by
    intro e he
    obtain ⟨l, hl, es, hes, id', hid'⟩ := hc.origin e he
    obtain ⟨sync, b, hb, trans, hnb, t, ht, hsv⟩ := (saveEdges_mem hes).2 _ hid'
    obtain ⟨trans', hn', hgood⟩ := hs.good.next l b (hloc l hl) (ho.mem.1 hb)
    have hn'' : s.ts.next l b = .ok trans' := hn'
    rw [hnb] at hn''; cases hn''
    exact ⟨l, sync, b, t, id', (hgood t ht).2.upd, hsv⟩
  refine ⟨?_, fun e he g hge => ?_, fun loc hl g hge => ?_, fun e he us hus u hu v hv => ?_⟩
  · rw [hc.decls]; exact fun p hp => ⟨hg.pos p hp, hdim p hp⟩
  · obtain ⟨l, sync, a, t, id, _, hsv⟩ := edge e he
    obtain ⟨_, _, _, _, _, hgd, _⟩ := (saveEdge_spec hsv).2 _ rfl
    rw [show ({ e with id := id } : Edge).guard = some g from hge] at hgd
    exact (((fromDisjunction_means hg [] hgd).1 g rfl).2 0).mono fun i hi => absurd hi.2 (by omega)
  · obtain ⟨l, _, hsl⟩ := forall2_mem_right hc.locs loc hl
    obtain ⟨_, _, h1, h2⟩ := saveLocation_spec hsl
    cases hi : l.inv with
    | none => rw [h1 hi] at hge; cases hge
    | some z =>
      have hgd := h2 z hi
      rw [hge] at hgd
      exact (((fromDisjunction_means hg [] hgd).1 g rfl).2 0).mono fun i hi => absurd hi.2 (by omega)
  · obtain ⟨l, sync, a, t, id, hup, hsv⟩ := edge e he
    obtain ⟨_, _, _, _, _, _, _, hup', _⟩ := (saveEdge_spec hsv).2 _ rfl
    rw [show ({ e with id := id } : Edge).update = some us from hus] at hup'
    obtain ⟨cu, hcu, hcu'⟩ := forall2_mem_right (mapM_ok.1 hup') u hu
    unfold CUpdate.asUpdate at hcu'
    obtain ⟨n, _, hcu'⟩ := bind_ok hcu'
    cases hcu'
    cases hv
    exact (hup cu hcu).2.2

/-- The general fact behind saving and pruning: a component that consists of a closed set of locations and their
transitions, compiled again, behaves like the system. -/
theorem saved_bisim {s : Sys F} (hs : s.Accepted) (hn : s.Readable) (hd : s.NamesDistinct) {ord : ActionOrder F}
    (ho : ord.For s) {trees : List (LocTree F)} (hloc : ∀ l ∈ trees, s.IsLoc l)
    (hclosed : ∀ l ∈ trees, s.ClosedAt l trees) {c : Component} (hc : SavedAs s ord trees c)
    {order : List (LocId × LocTree F) → List (LocId × LocTree F)} (hord : ∀ l, (order l).Perm l)
    {ins outs : List String} {id : Nat} {x : CompComp F}
    (hacts : ∀ e ∈ c.edges, (ins.contains e.action || outs.contains e.action) = true)
    (hx : CompComp.compileWith order c ins outs id = .ok x) :
    s.ts.Bisim (Sys.comp x).ts (SavedTo s trees x) := by
  obtain ⟨hg, hdim⟩ := hs.naming hd
  obtain ⟨xi, xo, _, xe⟩ := compileWith_content hord hx
  have hxg : (Sys.comp x).Good := (Sys.Accepted.comp (hc.ok hs hd ho hloc) hord hx).good
  have hxact : ∀ a, (Sys.comp x).ts.hasAction a = (ins.contains a || outs.contains a) := by
    intro a; rw [← xi, ← xo]; rfl
  -- the target of a saved edge
  have target : ∀ {t : Transition F} {e : Edge} {id : String} {t' : Transition F}, t.target ∈ trees →
      e.target = t.target.id.display → Transition.fromEdge c { e with id := id } = .ok t' →
      ∃ loc, saveLocation (clockMap s.decls) t.target = .ok loc ∧ LocTree.simple c.decls loc = .ok t'.target := by
    intro t e id t' htt he ht'
    obtain ⟨⟨loc, hf, hsimp⟩, _⟩ := fromEdge_spec ht'
    have hm : loc ∈ c.locations.filter fun l => l.id = e.target := by
      have hf' : c.locations.filter (fun l => l.id = e.target) = [loc] := hf
      rw [hf']; exact .head _
    obtain ⟨hm1, hm2⟩ := List.mem_filter.1 hm
    obtain ⟨l', hl', hs'⟩ := forall2_mem_right hc.locs loc hm1
    have hid := (saveLocation_spec hs').1
    have : l' = t.target := hs.display_inj hn (hloc l' hl') (hloc _ htt) (by
      rw [← hid, of_decide_eq_true hm2, he])
    subst this
    exact ⟨loc, hs', hsimp⟩
  -- transitions of a compiled location
  have nextx : ∀ {l m : LocTree F}, SavedTo s trees x l m → ∀ a, (Sys.comp x).ts.hasAction a = true →
      ∃ es, x.edges.lookup (.simple l.id.display) = some es ∧
        (Sys.comp x).ts.next m a = .ok ((es.filter fun e => e.1 = a).map (·.2)) ∧
        List.Forall₂ (fun (e : Edge) y => y.1 = e.action ∧ Transition.fromEdge c e = .ok y.2)
          (c.edges.filter fun e => e.source = l.id.display) es := by
    rintro l m ⟨hl, hm, loc, hsl, hsimp⟩ a ha
    obtain ⟨loc', hl', hs', es, hes, hf⟩ := compile_next_exact hord hx hm
    obtain ⟨inv, hm1, _⟩ := simple_spec hsimp
    obtain ⟨inv', hm1', _⟩ := simple_spec hs'
    have hid : m.id = .simple loc.id := by rw [hm1]; rfl
    have hid' : m.id = .simple loc'.id := by rw [hm1']; rfl
    have heq : loc'.id = loc.id := by
      have := hid.symm.trans hid'
      simp only [LocId.simple.injEq] at this
      exact this.symm
    obtain ⟨hlid, hty, _⟩ := saveLocation_spec hsl
    have hty' : m.ty = if l.isInitial then .initial else .normal := by rw [← hty, hm1]; rfl
    refine ⟨es, by rw [← hlid, ← hid]; exact hes, ?_, by rw [← hlid, ← heq]; exact hf⟩
    show x.next m a = _
    unfold CompComp.next
    have h1 : (x.inputs.contains a || x.outputs.contains a) = true := ha
    have h2 : m.isUniversal = false := by
      unfold LocTree.isUniversal; rw [hty']; split <;> rfl
    have h3 : m.isInconsistent = false := by
      unfold LocTree.isInconsistent; rw [hty']; split <;> rfl
    rw [h1, h2, h3, hes]
    rfl
  refine ⟨?_, ?_, ?_⟩
  · rintro l m ⟨_, _, loc, hsl, hsimp⟩ v hv
    exact saveLocation_inv hg hdim hsl hsimp hv
  · intro l m hlm v a l' v' hv hact
    obtain ⟨ha, trans, hnx, t, ht, htake, rfl, rfl⟩ := hact
    have hl := hlm.1
    obtain ⟨trans', hn', hgood⟩ := hs.good.next l a (hloc l hl) ha
    have hn'' : s.ts.next l a = .ok trans' := hn'
    rw [hnx] at hn''; cases hn''
    obtain ⟨hit, hgt⟩ := hgood t ht
    obtain ⟨es, hes, hsub⟩ := hc.edges l hl
    obtain ⟨q1, _⟩ := saveEdges_mem hes
    obtain ⟨trans', hn'', hall⟩ := q1 a (ho.mem.2 ha)
    rw [hnx] at hn''; cases hn''
    obtain ⟨sync, o, hso, hoe⟩ := hall t ht
    cases o with
    | none =>
      have hf := (saveEdge_spec hso).1 rfl
      have := (fromDisjunction_means hg [] hf).2 v hv.1
      have hsat : (minimal t.guard).Sat v := by
        have h1 := htake.1
        rw [← den_minimal] at h1
        exact h1.2
      exact absurd (this.2 hsat) (by simp [HoldsOpt, Holds])
    | some e =>
      obtain ⟨id', hce⟩ := hsub e (hoe e rfl)
      obtain ⟨hsrc, htgt, hsy, hac, _⟩ := (saveEdge_spec hso).2 e rfl
      obtain ⟨t', ht', es', hlk, hmem⟩ := xe _ hce
      have htt : t.target ∈ trees := hclosed l hl a _ ha hnx t ht
      obtain ⟨loc, hsl, hsimp⟩ := target htt htgt ht'
      obtain ⟨hu, hcan⟩ := saved_canTake hg hdim hc.decls hso ht' hsl hsimp hgt.upd hv
      have hxa : (Sys.comp x).ts.hasAction a = true := by
        rw [hxact, ← hac]; exact hacts { e with id := id' } hce
      obtain ⟨es2, hlk2, hnx2, _⟩ := nextx hlm a hxa
      have hlk' : x.edges.lookup (.simple l.id.display) = some es' := by rw [← hsrc]; exact hlk
      rw [hlk2] at hlk'; cases hlk'
      have hmem' : t' ∈ (es'.filter fun e => e.1 = a).map (·.2) := by
        refine List.mem_map.2 ⟨(e.action, t'), List.mem_filter.2 ⟨hmem, ?_⟩, rfl⟩
        simp [hac]
      obtain ⟨tx, hntx, hgx⟩ := hxg.next m a hlm.2.1 hxa
      have hntx' : (Sys.comp x).ts.next m a = .ok tx := hntx
      rw [hnx2] at hntx'; cases hntx'
      refine ⟨t'.target, ⟨hxa, _, hnx2, t', hmem', hcan.1 htake, rfl, by rw [hu]⟩, htt, (hgx t' hmem').1, loc, hsl, ?_⟩
      rw [← hc.decls]; exact hsimp
  · intro l m hlm v a m' v' hv hact
    obtain ⟨ha, trans, hnx, t', ht', htake, rfl, rfl⟩ := hact
    have hl := hlm.1
    obtain ⟨es2, hlk2, hnx2, hf2⟩ := nextx hlm a ha
    rw [hnx] at hnx2; cases hnx2
    obtain ⟨y, hy, rfl⟩ := List.mem_map.1 ht'
    obtain ⟨hy1, hy2⟩ := List.mem_filter.1 hy
    obtain ⟨e, he, hye, hfe⟩ := forall2_mem_right hf2 y hy1
    obtain ⟨he1, he2⟩ := List.mem_filter.1 he
    obtain ⟨l2, hl2, es, hes, id', hid'⟩ := hc.origin e he1
    obtain ⟨sync, b, hb, trans, hnb, t, ht, hsv⟩ := (saveEdges_mem hes).2 _ hid'
    obtain ⟨hsrc, htgt, hsy, hac, _⟩ := (saveEdge_spec hsv).2 _ rfl
    have : l2 = l := hs.display_inj hn (hloc l2 hl2) (hloc l hl) (by
      rw [← hsrc]; exact of_decide_eq_true he2)
    subst this
    have hab : b = a := by
      rw [← hac]; show e.action = a
      rw [← hye]; exact of_decide_eq_true hy2
    subst hab
    have ha' := ho.mem.1 hb
    obtain ⟨trans', hn', hgood⟩ := hs.good.next l2 b (hloc l2 hl) ha'
    have hn'' : s.ts.next l2 b = .ok trans' := hn'
    rw [hnb] at hn''; cases hn''
    obtain ⟨hit, hgt⟩ := hgood t ht
    have htt : t.target ∈ trees := hclosed l2 hl b _ ha' hnb t ht
    obtain ⟨loc, hsl, hsimp⟩ := target htt htgt (id := e.id) (t' := y.2) hfe
    obtain ⟨hu, hcan⟩ := saved_canTake hg hdim hc.decls hsv (id := e.id) (t' := y.2) hfe hsl hsimp hgt.upd hv
    refine ⟨t.target, ⟨ha', trans, hnb, t, ht, hcan.2 htake, rfl, by rw [hu]⟩, htt, ?_, loc, hsl, ?_⟩
    · obtain ⟨tx, hntx, hgx⟩ := hxg.next m b hlm.2.1 ha
      have hntx' : (Sys.comp x).ts.next m b = .ok tx := hntx
      rw [hnx] at hntx'; cases hntx'
      exact (hgx _ ht').1
    · rw [← hc.decls]; exact hsimp

end Reveaal
