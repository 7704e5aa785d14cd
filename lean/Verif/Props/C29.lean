import Verif.Props.C48
import Verif.Model.Pruning
import Verif.Props.C12

/-!
# C29 Pruning removes inconsistent behaviour

The property is violated: `prune_system` first saves the system as a component, in which every location is of type
initial or normal, and then looks for locations of type inconsistent.  There are none, so nothing is ever removed.
What is proved instead: pruning returns a system that behaves exactly like the one it was given.
-/

namespace Reveaal
open ZoneLib
variable {F : Type} [ZoneLib F]

/-- A saved component has no location of type inconsistent. -/
theorem SavedAs.no_bad {s : Sys F} {ord : ActionOrder F} {trees : List (LocTree F)} {c : Component}
    (h : SavedAs s ord trees c) {flags : List (String × Bool)}
    (hf : (c.locations.mapM fun l => do
      let b ← immediatelyInconsistent F c l
      .ok (l.id, b)) = (.ok flags : Res _)) : flags.filter (·.2) = [] := by
  rw [List.filter_eq_nil_iff]
  intro p hp
  obtain ⟨loc, hl, he⟩ := forall2_mem_right (mapM_ok.1 hf) p hp
  obtain ⟨b, hb, he⟩ := bind_ok he
  cases he
  obtain ⟨l, _, hsl⟩ := forall2_mem_right h.locs loc hl
  have hty := (saveLocation_spec hsl).2.1
  unfold immediatelyInconsistent at hb
  obtain ⟨t, ht, hb⟩ := bind_ok hb
  cases hb
  obtain ⟨inv, rfl, _⟩ := simple_spec ht
  show ¬ (decide (loc.ty = .inconsistent) = true)
  rw [hty]
  split <;> decide

/-- What pruning returns: the saved component, compiled. -/
theorem pruneSystem_spec {work : List String → Component → Res Component}
    {order : List (LocId × LocTree F) → List (LocId × LocTree F)} {ord : ActionOrder F} {checkOrd : List Bool → Orders}
    {fuel : Nat} {s s' : Sys F} (h : pruneSystem work order ord checkOrd fuel s = .ok s') :
    ∃ trees c x, s.allLocs = .ok trees ∧ SavedAs s ord trees c ∧
      CompComp.compileWith order c s.inputs s.outputs 0 = .ok x ∧ s' = .comp x := by
  unfold pruneSystem at h
  obtain ⟨o, _, h⟩ := bind_ok h
  cases o with
  | some f => cases h
  | none =>
    obtain ⟨c, h1, h⟩ := bind_ok h
    obtain ⟨x, h2, h⟩ := bind_ok h
    cases h
    obtain ⟨trees, h3, h4⟩ := combineComponents_spec h1
    have h2 := orPanic_ok h2
    unfold prune at h2
    obtain ⟨flags, h5, h2⟩ := bind_ok h2
    dsimp only at h2
    rw [h4.no_bad h5] at h2
    obtain ⟨c', h6, h2⟩ := bind_ok h2
    cases h6
    exact ⟨trees, c, x, h3, h4, h2, rfl⟩

theorem prune_bisim {s : Sys F} (hs : s.Accepted) (hn : s.Readable) (hd : s.NamesDistinct) (h1 : s.OneInitial)
    {work : List String → Component → Res Component}
    {order : List (LocId × LocTree F) → List (LocId × LocTree F)} (hord : ∀ l, (order l).Perm l)
    {ord : ActionOrder F} (ho : ord.For s) {checkOrd : List Bool → Orders} {fuel : Nat} {s' : Sys F}
    (h : pruneSystem work order ord checkOrd fuel s = .ok s') {l0 : LocTree F}
    (hl0 : s.initialLoc = .ok (some l0)) :
    s'.inputs = s.inputs ∧ s'.outputs = s.outputs ∧ ∃ R, s.ts.Bisim s'.ts R ∧
      (∀ l m, R l m → m.id = .simple l.id.display) ∧
      ∃ m0, s'.initialLoc = .ok (some m0) ∧ R l0 m0 := by
  obtain ⟨trees, c, x, h2, h3, h4, rfl⟩ := pruneSystem_spec h
  obtain ⟨ls, h5, h6⟩ := hs.good.all
  rw [h2] at h5; cases h5
  have hloc : ∀ l ∈ trees, s.IsLoc l := fun l hl => (h6 l).1 hl
  obtain ⟨xi, xo, _⟩ := compileWith_content hord h4
  have hinit : s.IsLoc l0 := by
    obtain ⟨o, q1, q2⟩ := hs.good.initial
    rw [hl0] at q1; cases q1
    exact q2 l0 rfl
  obtain ⟨m, hm, hsm⟩ := saved_initial hs hn h1 hloc h3 hord h4 hl0 ((h6 l0).2 hinit)
  refine ⟨xi, xo, SavedTo s trees x, saved_bisim hs hn hd ho hloc ?_ h3 hord ?_ h4, ?_, m, by rw [← hm]; rfl, hsm⟩
  · intro l hl a trans ha hnx t ht
    obtain ⟨trans', q1, q2⟩ := hs.good.next l a (hloc l hl) ha
    rw [hnx] at q1; cases q1
    exact (h6 _).2 (q2 t ht).1
  · intro e he
    obtain ⟨l, hl, es, hes, id', hid'⟩ := h3.origin e he
    obtain ⟨sync, b, hb, trans, hnb, t, ht, hsv⟩ := (saveEdges_mem hes).2 _ hid'
    obtain ⟨_, _, hsy, hac, _⟩ := (saveEdge_spec hsv).2 _ rfl
    have : e.action = b := hac
    rw [this]
    exact ho.mem.1 hb
  · rintro l m ⟨_, _, loc, hsl, hsimp⟩
    obtain ⟨inv, rfl, _⟩ := simple_spec hsimp
    show LocId.simple loc.id = _
    rw [(saveLocation_spec hsl).1]

/-- The system returned by pruning behaves exactly like the given one, with the same inputs and outputs, whatever the
loop of the pruning algorithm would do.  (For location names without `( ) | & \ [ ]`, unless the system is a single component, and one initial location per
component.) -/
theorem C29_unchanged_partial {s : Sys F} (hs : s.Accepted) (hn : s.Readable) (hd : s.NamesDistinct)
    (h1 : s.OneInitial) {work : List String → Component → Res Component}
    {order : List (LocId × LocTree F) → List (LocId × LocTree F)} (hord : ∀ l, (order l).Perm l)
    {ord : ActionOrder F} (ho : ord.For s) {checkOrd : List Bool → Orders} {fuel : Nat} {s' : Sys F}
    (h : pruneSystem work order ord checkOrd fuel s = .ok s') {l0 : LocTree F}
    (hl0 : s.initialLoc = .ok (some l0)) :
    s'.inputs = s.inputs ∧ s'.outputs = s.outputs ∧ s.ts.Equivalent s'.ts := by
  obtain ⟨i, o, R, hR, _, m0, hm0, hr⟩ := prune_bisim hs hn hd h1 hord ho h hl0
  exact ⟨i, o, R, hR, l0, m0, hl0, hm0, hr⟩

theorem Bisim.reach {A B : TS F} {R : LocTree F → LocTree F → Prop} (h : A.Bisim B R) {l0 m0 : LocTree F}
    (hA : A.initialLoc = .ok (some l0)) (hB : B.initialLoc = .ok (some m0)) (h0 : R l0 m0)
    (hval : ∀ l v a l' v', Valid (dim F) v → A.Reach l v → A.Act l v a l' v' → Valid (dim F) v') {l : LocTree F}
    {v : Val} (hr : A.Reach l v) : Valid (dim F) v ∧ ∃ m, B.Reach m v ∧ R l m := by
  induction hr with
  | init h' hv =>
    rw [hA] at h'; cases h'
    have hz : Valid (dim F) zeroVal := ⟨rfl, fun _ => le_refl _, fun _ _ => rfl⟩
    exact ⟨hz, m0, .init hB ((h.inv _ _ h0 _ hz).1 hv), h0⟩
  | @act l v a l' v' hr hs ih =>
    obtain ⟨hv, m, hm, hlm⟩ := ih
    obtain ⟨m', hact, hr'⟩ := h.left _ _ hlm _ _ _ _ hv hs
    exact ⟨hval _ _ _ _ _ hv hr hs, m', .act hm hact, hr'⟩
  | @delay l v d hr hd ih =>
    obtain ⟨hv, m, hm, hlm⟩ := ih
    refine ⟨delay_valid hv hd.1, m, .delay hm ⟨hd.1, fun d' h1 h2 => ?_⟩, hlm⟩
    exact (h.inv _ _ hlm _ (delay_valid hv h1)).1 (hd.2 d' h1 h2)

/-- **C29 is violated whenever it matters**: every state of the given system that can be reached, in a location of
type inconsistent or any other, is still reached after pruning, in the location of the same printed name. -/
theorem C29_nothing_removed {s : Sys F} (hs : s.Accepted) (hn : s.Readable) (hd : s.NamesDistinct)
    (h1 : s.OneInitial) {work : List String → Component → Res Component}
    {order : List (LocId × LocTree F) → List (LocId × LocTree F)} (hord : ∀ l, (order l).Perm l)
    {ord : ActionOrder F} (ho : ord.For s) {checkOrd : List Bool → Orders} {fuel : Nat} {s' : Sys F}
    (h : pruneSystem work order ord checkOrd fuel s = .ok s') {l : LocTree F} {v : Val} (hr : s.ts.Reach l v) :
    ∃ m, s'.ts.Reach m v ∧ m.id = .simple l.id.display := by
  have hl0 : ∃ l0, s.initialLoc = .ok (some l0) := by
    clear h
    induction hr with
    | @init l0 h => exact ⟨l0, h⟩
    | act _ _ ih => exact ih
    | delay _ _ ih => exact ih
  obtain ⟨l0, hl0⟩ := hl0
  obtain ⟨_, _, R, hR, hname, m0, hm0, hr0⟩ := prune_bisim hs hn hd h1 hord ho h hl0
  have hloc : ∀ l v, s.ts.Reach l v → s.IsLoc l := by
    intro l v hr
    exact (Sys.linked_of_reach hr).isLoc hs
  obtain ⟨_, m, hm, hlm⟩ := Bisim.reach hR hl0 hm0 hr0 (fun l v a l' v' hv hr hact => by
    obtain ⟨ha, trans, hnx, t, ht, _, _, rfl⟩ := hact
    obtain ⟨trans', q1, q2⟩ := hs.good.next l a (hloc l v hr) ha
    have q1' : s.ts.next l a = .ok trans' := q1
    rw [hnx] at q1'; cases q1'
    exact runUpdates_valid (q2 t ht).2.upd hv) hr
  exact ⟨m, hm, hname l m hlm⟩

/-! ## A concrete violation -/

/-- A component that can go to an inconsistent location, or do something else. -/
def exDoomed : Component := ⟨"A", ⟨[], [("x", 1), ("y", 2), ("z", 3)]⟩,
  [⟨"L0", none, .initial, "NORMAL"⟩, ⟨"Bad", none, .inconsistent, "NORMAL"⟩],
  [⟨"e0", "L0", "L0", .output, none, none, "fine"⟩, ⟨"e1", "L0", "Bad", .output, none, none, "oops"⟩]⟩

def sysDoomed : Sys Fed4 := .comp (getOk (CompComp.compile id exDoomed 0) (by decide +kernel))

def doomedOrders : List Bool → Orders := fun _ => ⟨fun _ => ["fine", "oops"], fun _ => [], fun _ => ["fine", "oops"]⟩

/-- The loop of the algorithm: removes everything.  It is never run. -/
def removeAll : List String → Component → Res Component := fun _ c => .ok { c with locations := [], edges := [] }

def sysSpared : Sys Fed4 :=
  getOk (pruneSystem removeAll id (plainActs sysDoomed) doomedOrders 20 sysDoomed) (by decide +kernel)

theorem sysDoomed_accepted : sysDoomed.Accepted := .comp (Component.ok_of_okB (by decide)) (fun _ => .refl _) (getOk_eq _)

/-- **C29 is violated**: pruning this system, which passes the checks, leaves the inconsistent location reachable. -/
theorem C29_violated : sysDoomed.Accepted ∧ sysDoomed.precheck doomedOrders 20 = .ok none ∧
    pruneSystem removeAll id (plainActs sysDoomed) doomedOrders 20 sysDoomed = .ok sysSpared ∧
    ∃ l v, sysDoomed.ts.Reach l v ∧ l.isInconsistent = true ∧
      ∃ m, sysSpared.ts.Reach m v ∧ m.id = .simple l.id.display := by
  have hr : sysDoomed.ts.Reach (.leaf (.simple "Bad") none .inconsistent) zeroVal := by
    refine .act (l := .leaf (.simple "L0") none .initial) (v := zeroVal) (a := "oops") (.init rfl (by rintro i ⟨⟩)) ?_
    refine ⟨by decide +kernel, _, rfl, _, .head _, ⟨?_, by rintro i ⟨⟩⟩, rfl, rfl⟩
    show zeroVal ∈ den (univ : Fed4)
    rw [den_univ]
    exact ⟨rfl, fun _ => le_refl _, fun _ _ => rfl⟩
  refine ⟨sysDoomed_accepted, passes_eq (by decide +kernel), getOk_eq _, _, _, hr, rfl, ?_⟩
  exact C29_nothing_removed sysDoomed_accepted (by decide +kernel) (by unfold Sys.NamesDistinct; decide +kernel)
    (Sys.oneInitial_comp (by decide +kernel)) (fun _ => .refl _) (plainActs_for _)
    (getOk_eq (r := pruneSystem removeAll id (plainActs sysDoomed) doomedOrders 20 sysDoomed) (by decide +kernel)) hr

end Reveaal
