import Verif.Lemmas.Renumber
import Verif.Props.C01
import Verif.Props.C26
import Verif.Props.C48
import Verif.Props.C53
import Verif.Examples

/-!
# C54: the numbers of clocks do not matter

*Components that differ only in the numbers of their clocks, or in guards and invariants with the same meaning, behave
alike.*
-/

namespace Reveaal
open ZoneLib
variable {F G : Type} [ZoneLib F] [ZoneLib G]

/-! ## Agreement of valuations -/

theorem lookup_fst_inj {m : List (String × Nat)} (h : (m.map (·.2)).Nodup) {n n' : String} {i : Nat}
    (h1 : m.lookup n = some i) (h2 : m.lookup n' = some i) : n = n' :=
  congrArg Prod.fst (List.inj_on_of_nodup_map h (lookup_mem h1) (lookup_mem h2) rfl)

theorem AgreeOn.assign {d d' : Decls} (hd : (d.clocks.map (·.2)).Nodup) (hd' : (d'.clocks.map (·.2)).Nodup) {v w : Val}
    (h : AgreeOn d d' v w) {n : String} {i i' : Nat} (hi : d.clocks.lookup n = some i)
    (hi' : d'.clocks.lookup n = some i') (c : ℝ) : AgreeOn d d' (assign v i c) (assign w i' c) := by
  intro m j j' hj hj'
  unfold Reveaal.assign
  by_cases hm : m = n
  · subst hm
    rw [hi] at hj; cases hj
    rw [hi'] at hj'; cases hj'
    simp
  · have h1 : j ≠ i := fun e => hm (lookup_fst_inj hd hj (e ▸ hi))
    have h2 : j' ≠ i' := fun e => hm (lookup_fst_inj hd' hj' (e ▸ hi'))
    simp only [h1, h2, if_false]
    exact h m j j' hj hj'

theorem AgreeOn.delay {d d' : Decls} (hd : d.InDim (dim F)) (hd' : d'.InDim (dim G)) {v w : Val} (h : AgreeOn d d' v w)
    (x : ℝ) : AgreeOn d d' (delay (dim F) v x) (delay (dim G) w x) := by
  intro m j j' hj hj'
  unfold Reveaal.delay
  rw [if_pos (hd _ (lookup_mem hj)), if_pos (hd' _ (lookup_mem hj')), h m j j' hj hj']

theorem AgreeOn.updates {d d' : Decls} (hd : (d.clocks.map (·.2)).Nodup) (hd' : (d'.clocks.map (·.2)).Nodup) :
    ∀ {us : List Update} {cs cs' : List CUpdate} {v w : Val}, us.mapM (CUpdate.compile d) = .ok cs →
      us.mapM (CUpdate.compile d') = .ok cs' → AgreeOn d d' v w → AgreeOn d d' (runUpdates cs v) (runUpdates cs' w)
  | [], cs, cs', v, w, h1, h2, h => by cases h1; cases h2; exact h
  | u :: us, cs, cs', v, w, h1, h2, h => by
    rw [List.mapM_cons] at h1 h2
    obtain ⟨c, hc, h1⟩ := bind_ok h1
    obtain ⟨c', hc', h2⟩ := bind_ok h2
    obtain ⟨t, ht, h1⟩ := bind_ok h1
    obtain ⟨t', ht', h2⟩ := bind_ok h2
    cases h1; cases h2
    show AgreeOn d d' (runUpdates t (Reveaal.assign v c.clock c.value)) (runUpdates t' (Reveaal.assign w c'.clock c'.value))
    refine AgreeOn.updates hd hd' ht ht' ?_
    obtain ⟨x, e⟩ := u
    unfold CUpdate.compile at hc hc'
    cases e with
    | int k =>
      dsimp only [Decls.clockIndex] at hc hc'
      cases hl : d.clocks.lookup x with
      | none => rw [hl] at hc; cases hc
      | some i =>
        cases hl' : d'.clocks.lookup x with
        | none => rw [hl'] at hc'; cases hc'
        | some i' =>
          rw [hl] at hc; rw [hl'] at hc'
          cases hc; cases hc'
          exact h.assign hd hd' hl hl' _
    | _ => cases hc

/-! ## Compiled locations and transitions -/

theorem clocksIn_dim {d : Decls} {n : Nat} (hd : d.InDim n) {g : BoolE}
    (h : g.ClocksIn fun i => i ∈ d.clocks.map (·.2)) : g.InDim n := by
  have arith : ∀ e : Arith, (e.ClocksIn fun i => i ∈ d.clocks.map (·.2)) → e.InDim n := by
    intro e
    induction e with
    | clock i =>
      intro h
      obtain ⟨p, hp, rfl⟩ := List.mem_map.1 h
      exact hd p hp
    | var => intro _; trivial
    | int => intro _; trivial
    | _ l r ihl ihr => exact fun h => ⟨ihl h.1, ihr h.2⟩
  induction g with
  | and l r ihl ihr => exact ⟨ihl h.1, ihr h.2⟩
  | or l r ihl ihr => exact ⟨ihl h.1, ihr h.2⟩
  | bool => trivial
  | _ l r => exact ⟨arith l h.1, arith r h.2⟩

theorem applied_exact {d : Decls} (hd : d.InDim (dim F)) {g : BoolE}
    (h : g.ClocksIn fun i => i ∈ d.clocks.map (·.2)) (good : GoodGuard d g) {z : F}
    (hz : applyConstraints d g univ = .ok z) {v : Val} (hv : Valid (dim F) v) : v ∈ den z ↔ Holds d v g := by
  rcases C01_guard_exact_partial d hd g (clocksIn_dim hd h) good (univ : F) with ⟨z', h1, h2⟩ | h1
  · rw [hz] at h1
    cases h1
    rw [h2, den_univ]
    exact ⟨fun h => h.2, fun h => ⟨hv, h⟩⟩
  · rw [hz] at h1; cases h1

theorem invSet_exact {c : Component} (hc : c.Clear (dim F)) {loc : Location} (hl : loc ∈ c.locations) {l : LocTree F}
    (h : LocTree.simple c.decls loc = .ok l) {v : Val} (hv : Valid (dim F) v) :
    v ∈ InvSet l ↔ HoldsOpt c.decls v loc.invariant := by
  obtain ⟨inv, rfl, h1, h2⟩ := simple_spec h
  cases hi : loc.invariant with
  | none =>
    rw [h1 hi]
    simp [InvSet, LocTree.inv, HoldsOpt]
  | some g =>
    obtain ⟨z, h3, rfl⟩ := h2 g hi
    have := applied_exact hc.ok.decls (hc.ok.invs loc hl g hi) (hc.invs loc hl g hi) h3 hv
    simp only [InvSet, LocTree.inv, HoldsOpt, Set.mem_ofPred_eq, Option.some.injEq, forall_eq', this]

theorem guard_exact {c : Component} (hc : c.Clear (dim F)) {e : Edge} (he : e ∈ c.edges) {t : Transition F}
    (h : Transition.fromEdge c e = .ok t) {v : Val} (hv : Valid (dim F) v) :
    v ∈ den t.guard ↔ HoldsOpt c.decls v e.guard := by
  obtain ⟨_, _, _, _, h1, h2⟩ := fromEdge_spec h
  cases hi : e.guard with
  | none =>
    rw [h1 hi, den_univ]
    exact ⟨fun _ => trivial, fun _ => hv⟩
  | some g => exact applied_exact hc.ok.decls (hc.ok.guards e he g hi) (hc.guards e he g hi) (h2 g hi) hv

theorem fromEdge_mapM {c : Component} {e : Edge} {t : Transition F} (h : Transition.fromEdge c e = .ok t) :
    (e.update.getD []).mapM (CUpdate.compile c.decls) = .ok t.updates := by
  obtain ⟨_, _, h1, h2, _⟩ := fromEdge_spec h
  cases hu : e.update with
  | none => rw [h1 hu]; rfl
  | some us => exact h2 us hu

/-! ## The relation -/

/-- The locations compiled from the same location of the component -/
def Twins (c c' : Component) (x : CompComp F) (x' : CompComp G) (l : LocTree F) (m : LocTree G) : Prop :=
  (Sys.comp x).IsLoc l ∧ (Sys.comp x').IsLoc m ∧ ∃ loc ∈ c.locations, ∃ loc' ∈ c'.locations,
    SameLocation c.decls c'.decls loc loc' ∧ LocTree.simple c.decls loc = .ok l ∧ LocTree.simple c'.decls loc' = .ok m

theorem SameMeaning.location {c c' : Component} (h : c.SameMeaning c') {l : Location} (hl : l ∈ c.locations) :
    ∃ l' ∈ c'.locations, SameLocation c.decls c'.decls l l' := forall2_mem_left h.locations l hl

theorem agreeOn_symm {d d' : Decls} {v w : Val} (h : AgreeOn d d' v w) : AgreeOn d' d w v :=
  fun n i i' hi hi' => (h n i' i hi' hi).symm

theorem SameGuard.symm {d d' : Decls} {g g' : Option BoolE} (h : SameGuard d d' g g') : SameGuard d' d g' g :=
  fun v w hvw => (h w v (agreeOn_symm hvw)).symm

theorem forall2_symm {α β : Type} {R : α → β → Prop} {S : β → α → Prop} (h : ∀ a b, R a b → S b a) {l : List α}
    {m : List β} (hl : List.Forall₂ R l m) : List.Forall₂ S m l := by
  induction hl with
  | nil => exact .nil
  | cons h1 _ ih => exact .cons (h _ _ h1) ih

theorem Component.SameMeaning.symm {c c' : Component} (h : c.SameMeaning c') : c'.SameMeaning c where
  clocks n := (h.clocks n).symm
  ints := h.ints.symm
  locations := forall2_symm (fun _ _ h => ⟨h.id.symm, h.ty.symm, h.urgency.symm, h.inv.symm⟩) h.locations
  edges := forall2_symm (fun _ _ h => ⟨h.source.symm, h.target.symm, h.sync.symm, h.action.symm, h.guard.symm,
    h.update.symm⟩) h.edges

theorem sameMeaning_actions {c c' : Component} (h : c.SameMeaning c') (s : SyncType) :
    c'.specificActions s = c.specificActions s := by
  unfold Component.specificActions
  have : ∀ {es es' : List Edge}, List.Forall₂ (EdgeMeansSame c.decls c'.decls) es es' →
      ((es'.filter fun e => e.sync = s && e.action ≠ "*").map fun e => e.action) =
        (es.filter fun e => e.sync = s && e.action ≠ "*").map fun e => e.action := by
    intro es es' hf
    induction hf with
    | nil => rfl
    | cons h1 _ ih =>
      rw [List.filter_cons, List.filter_cons, h1.sync, h1.action]
      split
      · rw [List.map_cons, List.map_cons, ih, h1.action]
      · exact ih
  exact congrArg mkSet (this h.edges)

theorem SameLocation.symm {d d' : Decls} {l l' : Location} (h : SameLocation d d' l l') : SameLocation d' d l' l :=
  ⟨h.id.symm, h.ty.symm, h.urgency.symm, h.inv.symm⟩

theorem Twins.symm {c c' : Component} {x : CompComp F} {x' : CompComp G} {l : LocTree F} {m : LocTree G}
    (h : Twins c c' x x' l m) : Twins c' c x' x m l := by
  obtain ⟨h1, h2, loc, hl, loc', hl', h3, h4, h5⟩ := h
  exact ⟨h2, h1, loc', hl', loc, hl, h3.symm, h5, h4⟩

theorem twins_inv {c c' : Component} (hc : c.Clear (dim F)) (hc' : c'.Clear (dim G)) {x : CompComp F} {x' : CompComp G}
    {l : LocTree F} {m : LocTree G} (h : Twins c c' x x' l m) {v w : Val} (hv : Valid (dim F) v) (hw : Valid (dim G) w)
    (hvw : AgreeOn c.decls c'.decls v w) : v ∈ InvSet l ↔ w ∈ InvSet m := by
  obtain ⟨_, _, loc, hl, loc', hl', h3, h4, h5⟩ := h
  rw [invSet_exact hc hl h4 hv, invSet_exact hc' hl' h5 hw]
  exact h3.inv v w hvw

theorem twins_act {c c' : Component} (h : c.SameMeaning c') (hc : c.Clear (dim F)) (hc' : c'.Clear (dim G))
    {order : List (LocId × LocTree F) → List (LocId × LocTree F)} (ho : ∀ l, (order l).Perm l)
    {order' : List (LocId × LocTree G) → List (LocId × LocTree G)} (ho' : ∀ l, (order' l).Perm l)
    {ins outs : List String} {id id' : Nat} {x : CompComp F} {x' : CompComp G}
    (hx : CompComp.compileWith order c ins outs id = .ok x) (hx' : CompComp.compileWith order' c' ins outs id' = .ok x')
    {l : LocTree F} {m : LocTree G} (hlm : Twins c c' x x' l m) {v w : Val} (hv : Valid (dim F) v)
    (hw : Valid (dim G) w) (hvw : AgreeOn c.decls c'.decls v w) {a : String} {l' : LocTree F} {v' : Val}
    (hact : (Sys.comp x).ts.Act l v a l' v') :
    ∃ m' w', (Sys.comp x').ts.Act m w a m' w' ∧ Twins c c' x x' l' m' ∧ AgreeOn c.decls c'.decls v' w' := by
  obtain ⟨i1, o1, _⟩ := compileWith_content ho hx
  obtain ⟨i2, o2, _⟩ := compileWith_content ho' hx'
  have hinv := fun {l m} (h : Twins c c' x x' l m) {v w} => twins_inv (v := v) (w := w) hc hc' h
  obtain ⟨ha, trans, hn, t, ht, hct, rfl, rfl⟩ := hact
  have ha' : (Sys.comp x').ts.hasAction a = true := by
    change (x.inputs.contains a || x.outputs.contains a) = true at ha
    change (x'.inputs.contains a || x'.outputs.contains a) = true
    rw [i2, o2, ← i1, ← o1, ha]
  have hlm' := hlm
  obtain ⟨hl, hm, loc, hloc, loc', hloc', hsame, hs, hs'⟩ := hlm
  have hty : m.ty = l.ty := by
    obtain ⟨_, rfl, _⟩ := simple_spec hs
    obtain ⟨_, rfl, _⟩ := simple_spec hs'
    exact hsame.ty
  change x.next l a = .ok trans at hn
  have hself : trans = [Transition.withoutId l] → x'.next m a = .ok [Transition.withoutId m] →
      ∃ m' w', (Sys.comp x').ts.Act m w a m' w' ∧ Twins c c' x x' t.target m' ∧
        AgreeOn c.decls c'.decls (runUpdates t.updates v) w' := by
    rintro rfl hn'
    rw [List.mem_singleton] at ht
    subst ht
    refine ⟨m, w, ⟨ha', _, hn', _, List.mem_singleton.2 rfl, ⟨?_, ?_⟩, rfl, rfl⟩, hlm', hvw⟩
    · show w ∈ den univ
      rw [den_univ]; exact hw
    · exact (hinv hlm' hv hw hvw).1 hct.2
  have hstay := (Sys.Accepted.comp hc.ok ho hx).good.next_ok hl ha hn t ht
  unfold CompComp.next at hn
  rw [if_neg (by
    change (x.inputs.contains a || x.outputs.contains a) = true at ha
    rw [ha]; decide)] at hn
  have hnx' : x'.next m a = if l.isUniversal then .ok [Transition.withoutId m]
      else if l.isInconsistent && x.inputs.contains a then .ok [Transition.withoutId m]
      else match x'.edges.lookup m.id with
        | none => .error (.panic "called `Option::unwrap()` on a `None` value")
        | some es => .ok ((es.filter fun e => e.1 = a).map (·.2)) := by
    unfold CompComp.next
    rw [if_neg (by
      change (x'.inputs.contains a || x'.outputs.contains a) = true at ha'
      rw [ha']; decide)]
    have u1 : m.isUniversal = l.isUniversal := by unfold LocTree.isUniversal; rw [hty]
    have u2 : m.isInconsistent = l.isInconsistent := by unfold LocTree.isInconsistent; rw [hty]
    rw [u1, u2, i2, i1]
    rfl
  split at hn
  · rename_i hu
    cases hn
    exact hself rfl (by rw [hnx', if_pos hu])
  rename_i hu
  split at hn
  · rename_i hi
    cases hn
    exact hself rfl (by rw [hnx', if_neg hu, if_pos hi])
  rename_i hi
  rw [if_neg hu, if_neg hi] at hnx'
  obtain ⟨loc1, hloc1, hs1, es, hes, hf⟩ := compile_next_exact ho hx hl
  obtain ⟨loc2, hloc2, hs2, es', hes', hf'⟩ := compile_next_exact ho' hx' hm
  have hid1 : loc1.id = loc.id := by
    obtain ⟨_, h1, _⟩ := simple_spec hs
    obtain ⟨_, h2, _⟩ := simple_spec hs1
    have := h1.symm.trans h2
    injection this with this
    injection this with this
    exact this.symm
  have hid2 : loc2.id = loc'.id := by
    obtain ⟨_, h1, _⟩ := simple_spec hs'
    obtain ⟨_, h2, _⟩ := simple_spec hs2
    have := h1.symm.trans h2
    injection this with this
    injection this with this
    exact this.symm
  rw [hes] at hn
  cases hn
  rw [hes'] at hnx'
  have hstay' := (Sys.Accepted.comp hc'.ok ho' hx').good.next_ok hm ha' hnx'
  obtain ⟨y, hy, rfl⟩ := List.mem_map.1 ht
  obtain ⟨hy, hya⟩ := List.mem_filter.1 hy
  obtain ⟨e, he, hea, hfe⟩ := forall2_mem_right hf y hy
  obtain ⟨hec, hesrc⟩ := List.mem_filter.1 he
  obtain ⟨e', hec', hsm⟩ := forall2_mem_left h.edges e hec
  obtain ⟨y', hy', hea', hfe'⟩ := forall2_mem_left hf' e' (List.mem_filter.2 ⟨hec', by
    rw [decide_eq_true_iff] at hesrc ⊢
    rw [hsm.source, hesrc, hid1, hid2, hsame.id]⟩)
  have hm' : y'.2 ∈ (es'.filter fun e => e.1 = a).map (·.2) := by
    refine List.mem_map.2 ⟨y', List.mem_filter.2 ⟨hy', ?_⟩, rfl⟩
    rw [decide_eq_true_iff] at hya ⊢
    rw [hea', hsm.action, ← hea, hya]
  have hupd : AgreeOn c.decls c'.decls (runUpdates y.2.updates v) (runUpdates y'.2.updates w) := by
    refine AgreeOn.updates hc.indices hc'.indices (fromEdge_mapM hfe) ?_ hvw
    rw [← hsm.update]
    exact fromEdge_mapM hfe'
  have htw : Twins c c' x x' y.2.target y'.2.target := by
    obtain ⟨⟨tl, ht1, ht2⟩, _⟩ := fromEdge_spec hfe
    obtain ⟨⟨tl', ht1', ht2'⟩, _⟩ := fromEdge_spec hfe'
    have htl := List.mem_filter.1 (ht1 ▸ List.mem_singleton.2 rfl : tl ∈ c.locations.filter fun l => l.id = e.target)
    have htl' := List.mem_filter.1
      (ht1' ▸ List.mem_singleton.2 rfl : tl' ∈ c'.locations.filter fun l => l.id = e'.target)
    obtain ⟨tl2, htl2, hsl⟩ := forall2_mem_left h.locations tl htl.1
    have : tl2 = tl' := by
      have : tl2 ∈ c'.locations.filter fun l => l.id = e'.target := List.mem_filter.2 ⟨htl2, by
        rw [decide_eq_true_iff, hsl.id, hsm.target]
        exact of_decide_eq_true htl.2⟩
      rw [ht1'] at this
      exact List.mem_singleton.1 this
    subst this
    exact ⟨hstay.1, (hstay' _ hm').1, tl, htl.1, tl2, htl2, hsl, ht2, ht2'⟩
  refine ⟨y'.2.target, runUpdates y'.2.updates w, ⟨ha', _, hnx', _, hm', ⟨?_, ?_⟩, rfl, rfl⟩, htw, hupd⟩
  · rw [guard_exact hc' hec' hfe' hw]
    exact (hsm.guard v w hvw).1 ((guard_exact hc hec hfe hv).1 hct.1)
  · exact (hinv htw (runUpdates_valid (fromEdge_updates hc.ok hec hfe).1 hv)
      (runUpdates_valid (fromEdge_updates hc'.ok hec' hfe').1 hw) hupd).1 hct.2

theorem clear_location {c : Component} (hc : c.Clear (dim F)) {l l' : Location} (h : l ∈ c.locations)
    (h' : l' ∈ c.locations) (he : l.id = l'.id) : l = l' := List.inj_on_of_nodup_map hc.ids h h' he

theorem twins_initial {c c' : Component} (h : c.SameMeaning c') (hc' : c'.Clear (dim G))
    {order : List (LocId × LocTree F) → List (LocId × LocTree F)} (ho : ∀ l, (order l).Perm l)
    {order' : List (LocId × LocTree G) → List (LocId × LocTree G)} (ho' : ∀ l, (order' l).Perm l)
    {ins outs : List String} {id id' : Nat} {x : CompComp F} {x' : CompComp G}
    (hx : CompComp.compileWith order c ins outs id = .ok x) (hx' : CompComp.compileWith order' c' ins outs id' = .ok x')
    {l : LocTree F} (hl : x.initial = some l) : ∃ m, x'.initial = some m ∧ Twins c c' x x' l m := by
  rw [initial_find hx] at hl
  obtain ⟨p, hp, rfl⟩ := List.mem_map.1 (List.mem_of_find?_eq_some hl)
  have hpi := List.find?_some hl
  obtain ⟨_, _, hlocs, _⟩ := compileWith_content ho hx
  obtain ⟨_, _, hlocs', _⟩ := compileWith_content ho' hx'
  obtain ⟨_, loc, hloc, hs⟩ := hlocs p hp
  obtain ⟨loc', hloc', hsame⟩ := forall2_mem_left h.locations loc hloc
  have hty : loc.ty = .initial := by
    obtain ⟨_, h1, _⟩ := simple_spec hs
    rw [h1] at hpi
    exact of_decide_eq_true hpi
  have all : ∀ q ∈ x'.locations, q.2.isInitial = true → Twins c c' x x' p.2 q.2 := by
    intro q hq hqi
    obtain ⟨_, loc2, hloc2, hs2⟩ := hlocs' q hq
    have : loc2 = loc' := clear_location hc' hloc2 hloc' (hc'.initial _ hloc2 _ hloc' (by
      obtain ⟨_, h1, _⟩ := simple_spec hs2
      rw [h1] at hqi
      exact of_decide_eq_true hqi) (hsame.ty.trans hty))
    subst this
    exact ⟨⟨p, hp, rfl⟩, ⟨q, hq, rfl⟩, loc, hloc, loc2, hloc2, hsame, hs, hs2⟩
  have hex : ∃ q ∈ x'.locations, q.2.isInitial = true := by
    have : ∃ q ∈ x'.locations, q.1 = .simple loc'.id := by
      unfold CompComp.compileWith at hx'
      split at hx'
      · cases hx'
      obtain ⟨locs0, h1, hx'⟩ := bind_ok hx'
      obtain ⟨edges, h2, hx'⟩ := bind_ok hx'
      cases hx'
      obtain ⟨_, _, hb⟩ := buildLocations_spec h1
      obtain ⟨q, hq, he⟩ := List.mem_map.1 (hb loc' hloc')
      exact ⟨q, (ho' locs0).mem_iff.2 hq, he⟩
    obtain ⟨q, hq, he⟩ := this
    refine ⟨q, hq, ?_⟩
    obtain ⟨hid, loc2, hloc2, hs2⟩ := hlocs' q hq
    obtain ⟨_, h1, _⟩ := simple_spec hs2
    have : loc2 = loc' := clear_location hc' hloc2 hloc' (by
      rw [he, h1] at hid
      injection hid)
    rw [h1, this]
    simp [LocTree.isInitial, LocTree.ty, hsame.ty, hty]
  rw [initial_find hx']
  cases hf : (x'.locations.map (·.2)).find? fun l => l.isInitial with
  | none =>
    obtain ⟨q, hq, hqi⟩ := hex
    exact absurd hqi (List.find?_eq_none.1 hf _ (List.mem_map.2 ⟨q, hq, rfl⟩))
  | some m =>
    obtain ⟨q, hq, rfl⟩ := List.mem_map.1 (List.mem_of_find?_eq_some hf)
    exact ⟨_, rfl, all q hq (List.find?_some hf)⟩

/-! ## The property -/

theorem twins_bisim {c c' : Component} (h : c.SameMeaning c') (hc : c.Clear (dim F)) (hc' : c'.Clear (dim G))
    {order : List (LocId × LocTree F) → List (LocId × LocTree F)} (ho : ∀ l, (order l).Perm l)
    {order' : List (LocId × LocTree G) → List (LocId × LocTree G)} (ho' : ∀ l, (order' l).Perm l)
    {ins outs : List String} {id id' : Nat} {x : CompComp F} {x' : CompComp G}
    (hx : CompComp.compileWith order c ins outs id = .ok x)
    (hx' : CompComp.compileWith order' c' ins outs id' = .ok x') :
    (Sys.comp x).ts.BisimUpTo (Sys.comp x').ts (AgreeOn c.decls c'.decls) (Twins c c' x x') := by
  refine ⟨fun _ _ _ _ _ => rfl, fun v w d hvw => hvw.delay hc.ok.decls hc'.ok.decls d,
    fun l m hlm v w hv hw hvw => twins_inv hc hc' hlm hv hw hvw, ?_, ?_⟩
  · intro l m hlm v w a l' v' hv hw hvw hact
    exact twins_act h hc hc' ho ho' hx hx' hlm hv hw hvw hact
  · intro l m hlm v w a m' w' hv hw hvw hact
    obtain ⟨l', v', h1, h2, h3⟩ := twins_act h.symm hc' hc ho' ho hx' hx hlm.symm hw hv (agreeOn_symm hvw) hact
    exact ⟨l', v', h1, h2.symm, agreeOn_symm h3⟩

/-- **C54**, with given sets of actions. -/
theorem C54_actions_partial {c c' : Component} (h : c.SameMeaning c') (hc : c.Clear (dim F)) (hc' : c'.Clear (dim G))
    {order : List (LocId × LocTree F) → List (LocId × LocTree F)} (ho : ∀ l, (order l).Perm l)
    {order' : List (LocId × LocTree G) → List (LocId × LocTree G)} (ho' : ∀ l, (order' l).Perm l)
    {ins outs : List String} {id id' : Nat} {x : CompComp F} {x' : CompComp G}
    (hx : CompComp.compileWith order c ins outs id = .ok x)
    (hx' : CompComp.compileWith order' c' ins outs id' = .ok x') :
    (Sys.comp x).ts.EquivalentUpTo (Sys.comp x').ts (AgreeOn c.decls c'.decls) := by
  refine ⟨Twins c c' x x', twins_bisim h hc hc' ho ho' hx hx', ?_, ?_⟩
  · intro l hl
    have hl : x.initial = some l := by injection hl
    obtain ⟨m, h1, h2⟩ := twins_initial h hc' ho ho' hx hx' hl
    exact ⟨m, congrArg Except.ok h1, h2⟩
  · intro m hm
    have hm : x'.initial = some m := by injection hm
    obtain ⟨l, h1, h2⟩ := twins_initial h.symm hc ho' ho hx' hx hm
    exact ⟨l, congrArg Except.ok h1, h2.symm⟩

/-- **C54 (part).** Two components with the same meaning behave alike, up to the numbers of their clocks.

Missing: components with guards outside the fragment of C01, with clocks that share an index, or with several initial
locations (the one that is used depends on a hash map). -/
theorem C54_behaviour_partial {c c' : Component} (h : c.SameMeaning c') (hc : c.Clear (dim F)) (hc' : c'.Clear (dim G))
    {order : List (LocId × LocTree F) → List (LocId × LocTree F)} (ho : ∀ l, (order l).Perm l)
    {order' : List (LocId × LocTree G) → List (LocId × LocTree G)} (ho' : ∀ l, (order' l).Perm l) {id id' : Nat}
    {x : CompComp F} {x' : CompComp G} (hx : CompComp.compile order c id = .ok x)
    (hx' : CompComp.compile order' c' id' = .ok x') :
    (Sys.comp x).ts.EquivalentUpTo (Sys.comp x').ts (AgreeOn c.decls c'.decls) := by
  unfold CompComp.compile at hx hx'
  rw [sameMeaning_actions h, sameMeaning_actions h] at hx'
  exact C54_actions_partial h hc hc' ho ho' hx hx'

/-! ## What follows -/

theorem good_reach {s : Sys F} (hs : s.Good) {l : LocTree F} {v : Val} (h : s.ts.Reach l v) :
    s.IsLoc l ∧ Valid (dim F) v := by
  induction h with
  | init h _ =>
    obtain ⟨o, h1, h2⟩ := hs.initial
    have h : s.initialLoc = _ := h
    rw [h] at h1
    cases h1
    exact ⟨h2 _ rfl, Sys.zeroVal_valid⟩
  | act _ hs' ih =>
    obtain ⟨ha, trans, hn, t, ht, _, rfl, rfl⟩ := hs'
    have := hs.next_ok ih.1 ha hn t ht
    exact ⟨this.1, runUpdates_valid this.2.upd ih.2⟩
  | delay _ hd ih => exact ⟨ih.1, delay_valid ih.2 hd.1⟩

/-- Systems that behave alike up to a relation between valuations reach related states. -/
theorem TS.BisimUpTo.reach {s : Sys F} {s' : Sys G} (hs : s.Good) (hs' : s'.Good) {V : Val → Val → Prop}
    {R : LocTree F → LocTree G → Prop} (h : s.ts.BisimUpTo s'.ts V R)
    (h0 : ∀ l, s.ts.initialLoc = .ok (some l) → ∃ m, s'.ts.initialLoc = .ok (some m) ∧ R l m) {l : LocTree F} {v : Val}
    (hr : s.ts.Reach l v) : ∃ m w, s'.ts.Reach m w ∧ R l m ∧ V v w := by
  induction hr with
  | init hi hv =>
    obtain ⟨m, h1, h2⟩ := h0 _ hi
    exact ⟨m, zeroVal, .init h1 ((h.inv _ _ h2 _ _ Sys.zeroVal_valid Sys.zeroVal_valid h.zero).1 hv), h2, h.zero⟩
  | act hr hs1 ih =>
    obtain ⟨m, w, h1, h2, h3⟩ := ih
    obtain ⟨m', w', h4, h5, h6⟩ := h.left _ _ h2 _ _ _ _ _ (good_reach hs hr).2 (good_reach hs' h1).2 h3 hs1
    exact ⟨m', w', .act h1 h4, h5, h6⟩
  | @delay l v d hr hd ih =>
    obtain ⟨m, w, h1, h2, h3⟩ := ih
    have hv := (good_reach hs hr).2
    have hw := (good_reach hs' h1).2
    refine ⟨m, _, .delay h1 ⟨hd.1, fun d' p q => ?_⟩, h2, h.delay _ _ d h3⟩
    exact (h.inv _ _ h2 _ _ (delay_valid hv p) (delay_valid hw p) (h.delay _ _ d' h3)).1 (hd.2 d' p q)

/-- **C54 (part), on states.** Whatever state one component reaches, the other reaches a state of the same location with
the same clock values. -/
theorem C54_reach_partial {c c' : Component} (h : c.SameMeaning c') (hc : c.Clear (dim F)) (hc' : c'.Clear (dim G))
    {order : List (LocId × LocTree F) → List (LocId × LocTree F)} (ho : ∀ l, (order l).Perm l)
    {order' : List (LocId × LocTree G) → List (LocId × LocTree G)} (ho' : ∀ l, (order' l).Perm l) {id id' : Nat}
    {x : CompComp F} {x' : CompComp G} (hx : CompComp.compile order c id = .ok x)
    (hx' : CompComp.compile order' c' id' = .ok x') {l : LocTree F} {v : Val} (hr : (Sys.comp x).ts.Reach l v) :
    ∃ m w, (Sys.comp x').ts.Reach m w ∧ m.id = l.id ∧ AgreeOn c.decls c'.decls v w := by
  unfold CompComp.compile at hx hx'
  rw [sameMeaning_actions h, sameMeaning_actions h] at hx'
  have key : ∃ m w, (Sys.comp x').ts.Reach m w ∧ Twins c c' x x' l m ∧ AgreeOn c.decls c'.decls v w := by
    refine TS.BisimUpTo.reach (Sys.Accepted.comp hc.ok ho hx).good (Sys.Accepted.comp hc'.ok ho' hx').good
      (R := Twins c c' x x') (V := AgreeOn c.decls c'.decls) (h := ?_) (h0 := ?_) hr
    · exact twins_bisim h hc hc' ho ho' hx hx'
    · intro l hl
      have hl : x.initial = some l := by injection hl
      obtain ⟨m, h1, h2⟩ := twins_initial h hc' ho ho' hx hx' hl
      exact ⟨m, congrArg Except.ok h1, h2⟩
  obtain ⟨m, w, h1, ⟨_, _, loc, _, loc', _, hs, h2, h3⟩, h4⟩ := key
  refine ⟨m, w, h1, ?_, h4⟩
  obtain ⟨_, rfl, _⟩ := simple_spec h2
  obtain ⟨_, rfl, _⟩ := simple_spec h3
  exact congrArg LocId.simple hs.id

theorem isClock_renumber {d d' : Decls} (hn : SameNames d d') {e : Arith} {x : Nat} (he : e.NamesOnly)
    (h : IsClock d e x) : ∃ x', IsClock d' e x' := by
  rcases h with rfl | ⟨n, rfl, h⟩
  · exact he.elim
  · obtain ⟨x', h'⟩ := (hn n).2 ⟨x, h⟩
    exact ⟨x', .inr ⟨n, rfl, h'⟩⟩

theorem goodSides_renumber {d d' : Decls} (hn : SameNames d d') (hi : d'.ints = d.ints) {l r : Arith}
    (hl : l.NamesOnly) (hr : r.NamesOnly) (h : GoodSides d l r) : GoodSides d' l r := by
  have hc : ∀ k, (constVal d k).isSome → (constVal d' k).isSome := fun k h => by rwa [constVal_renumber hn hi]
  have pc : ∀ {e : Arith}, e.NamesOnly → PosChain d e → PosChain d' e := by
    intro e he h
    induction h with
    | clock h => obtain ⟨_, h⟩ := isClock_renumber hn he h; exact .clock h
    | addR _ k ih => exact .addR (ih he.1) (hc _ k)
    | addL _ k ih => exact .addL (ih he.2) (hc _ k)
  have nc : ∀ {e : Arith}, e.NamesOnly → NegChain d e → NegChain d' e := by
    intro e he h
    induction h with
    | base h k => obtain ⟨_, h⟩ := isClock_renumber hn he.2 h; exact .base h (hc _ k)
    | addR _ k ih => exact .addR (ih he.1) (hc _ k)
    | addL _ k ih => exact .addL (ih he.2) (hc _ k)
    | subR _ k ih => exact .subR (ih he.1) (hc _ k)
  have ps : ∀ {e : Arith}, e.NamesOnly → PosSide d e → PosSide d' e := by
    intro e he h
    cases h with
    | chain h => exact .chain (pc he h)
    | subR h k => exact .subR (pc he.1 h) (hc _ k)
  have ds : ∀ {e : Arith}, e.NamesOnly → DiffSide d e → DiffSide d' e := by
    intro e he h
    cases h with
    | posSub h1 h2 => obtain ⟨_, h2⟩ := isClock_renumber hn he.2 h2; exact .posSub (ps he.1 h1) h2
    | posNeg h1 h2 => obtain ⟨_, h1⟩ := isClock_renumber hn he.1 h1; exact .posNeg h1 (nc he.2 h2)
    | negPos h1 h2 => obtain ⟨_, h2⟩ := isClock_renumber hn he.2 h2; exact .negPos (nc he.1 h1) h2
  cases h with
  | posConst h k => exact .posConst (ps hl h) (hc _ k)
  | constPos k h => exact .constPos (hc _ k) (ps hr h)
  | negConst h k => exact .negConst (nc hl h) (hc _ k)
  | constNeg k h => exact .constNeg (hc _ k) (nc hr h)
  | posPos h k => exact .posPos (ps hl h) (ps hr k)
  | negNeg h k => exact .negNeg (nc hl h) (nc hr k)
  | diffConst h k => exact .diffConst (ds hl h) (hc _ k)
  | constDiff k h => exact .constDiff (hc _ k) (ds hr h)

theorem goodGuard_renumber {d d' : Decls} (hn : SameNames d d') (hi : d'.ints = d.ints) {g : BoolE} (hg : g.NamesOnly)
    (h : GoodGuard d g) : GoodGuard d' g := by
  induction g with
  | and l r ihl ihr => exact ⟨ihl hg.1 h.1, ihr hg.2 h.2⟩
  | or l r ihl ihr => exact ⟨ihl hg.1 h.1, ihr hg.2 h.2⟩
  | bool => trivial
  | _ => exact goodSides_renumber hn hi hg.1 hg.2 h

theorem namesOnly_clocksIn {g : BoolE} (hg : g.NamesOnly) (P : Nat → Prop) : g.ClocksIn P := by
  have arith : ∀ e : Arith, e.NamesOnly → e.ClocksIn P := by
    intro e
    induction e with
    | clock => exact False.elim
    | var => intro _; trivial
    | int => intro _; trivial
    | _ l r ihl ihr => exact fun h => ⟨ihl h.1, ihr h.2⟩
  induction g with
  | and l r ihl ihr => exact ⟨ihl hg.1, ihr hg.2⟩
  | or l r ihl ihr => exact ⟨ihl hg.1, ihr hg.2⟩
  | bool => trivial
  | _ => exact ⟨arith _ hg.1, arith _ hg.2⟩

/-- All guards and invariants of the component mention clocks by name, as after reading. -/
structure Component.ByName (c : Component) : Prop where
  guards : ∀ e ∈ c.edges, ∀ g, e.guard = some g → g.NamesOnly
  invs : ∀ l ∈ c.locations, ∀ g, l.invariant = some g → g.NamesOnly

theorem withClocks_names (c : Component) (f : Nat → Nat) : SameNames c.decls (c.withClocks f).decls := by
  intro n
  rw [lookup_isSome_iff, lookup_isSome_iff]
  unfold Component.withClocks
  rw [List.map_map]
  rfl

theorem withClocks_same {c : Component} (hb : c.ByName) (f : Nat → Nat) : c.SameMeaning (c.withClocks f) := by
  have key : ∀ g : Option BoolE, (∀ b, g = some b → b.NamesOnly) → SameGuard c.decls (c.withClocks f).decls g g := by
    intro g hg v w hvw
    cases g with
    | none => exact Iff.rfl
    | some b => exact (holds_renumber (withClocks_names c f) rfl hvw (hg b rfl)).symm
  exact ⟨withClocks_names c f, rfl, List.forall₂_same.2 fun l hl => ⟨rfl, rfl, rfl, key _ (hb.invs l hl)⟩,
    List.forall₂_same.2 fun e he => ⟨rfl, rfl, rfl, rfl, key _ (hb.guards e he), rfl⟩⟩

theorem withClocks_clear {c : Component} {n : Nat} (hc : c.Clear n) (hb : c.ByName) {f : Nat → Nat} {n' : Nat}
    (hf : ∀ i ∈ c.decls.clocks.map (·.2), ∀ j ∈ c.decls.clocks.map (·.2), f i = f j → i = j)
    (hd : ∀ i ∈ c.decls.clocks.map (·.2), 0 < f i ∧ f i < n') : (c.withClocks f).Clear n' where
  ok := {
    decls := by
      intro p hp
      obtain ⟨q, hq, rfl⟩ := List.mem_map.1 hp
      exact hd _ (List.mem_map_of_mem hq)
    guards := fun e he g hg => namesOnly_clocksIn (hb.guards e he g hg) _
    invs := fun l hl g hg => namesOnly_clocksIn (hb.invs l hl g hg) _
    updates := hc.ok.updates }
  guards := fun e he g hg => goodGuard_renumber (withClocks_names c f) rfl (hb.guards e he g hg) (hc.guards e he g hg)
  invs := fun l hl g hg => goodGuard_renumber (withClocks_names c f) rfl (hb.invs l hl g hg) (hc.invs l hl g hg)
  ids := hc.ids
  initial := hc.initial
  indices := by
    have : (c.withClocks f).decls.clocks.map (·.2) = (c.decls.clocks.map (·.2)).map f := by
      unfold Component.withClocks
      rw [List.map_map, List.map_map]
      rfl
    rw [this]
    exact List.Nodup.map_on hf hc.indices

/-- **C54 (part), renumbering.** Giving the clocks of a component other numbers, different ones to different clocks,
does not change its behaviour. -/
theorem C54_renumbered_partial {c : Component} (hc : c.Clear (dim F)) (hb : c.ByName) {f : Nat → Nat}
    (hf : ∀ i ∈ c.decls.clocks.map (·.2), ∀ j ∈ c.decls.clocks.map (·.2), f i = f j → i = j)
    (hd : ∀ i ∈ c.decls.clocks.map (·.2), 0 < f i ∧ f i < dim G)
    {order : List (LocId × LocTree F) → List (LocId × LocTree F)} (ho : ∀ l, (order l).Perm l)
    {order' : List (LocId × LocTree G) → List (LocId × LocTree G)} (ho' : ∀ l, (order' l).Perm l) {id id' : Nat}
    {x : CompComp F} {x' : CompComp G} (hx : CompComp.compile order c id = .ok x)
    (hx' : CompComp.compile order' (c.withClocks f) id' = .ok x') :
    (Sys.comp x).ts.EquivalentUpTo (Sys.comp x').ts (AgreeOn c.decls (c.withClocks f).decls) :=
  C54_behaviour_partial (withClocks_same hb f) hc (withClocks_clear hc hb hf hd) ho ho' hx hx'

/-- In particular: what a component does in a query does not depend on the components before it, which decide how its
clocks are numbered (`set_clock_indices`). -/
theorem C54_position_partial {c : Component} (hb : c.ByName) {i j : Nat} (hc : (c.setClockIndices i).1.Clear (dim F))
    (hj : ∀ p ∈ c.decls.clocks, 0 < p.2 + j ∧ p.2 + j < dim G)
    {order : List (LocId × LocTree F) → List (LocId × LocTree F)} (ho : ∀ l, (order l).Perm l)
    {order' : List (LocId × LocTree G) → List (LocId × LocTree G)} (ho' : ∀ l, (order' l).Perm l) {id id' : Nat}
    {x : CompComp F} {x' : CompComp G} (hx : CompComp.compile order (c.setClockIndices i).1 id = .ok x)
    (hx' : CompComp.compile order' (c.setClockIndices j).1 id' = .ok x') :
    (Sys.comp x).ts.EquivalentUpTo (Sys.comp x').ts
      (AgreeOn (c.setClockIndices i).1.decls (c.setClockIndices j).1.decls) := by
  have e : (c.setClockIndices j).1 = (c.setClockIndices i).1.withClocks fun k => k - i + j := by
    unfold Component.setClockIndices Component.withClocks Decls.setClockIndices
    simp
  have hm : ∀ k ∈ (c.setClockIndices i).1.decls.clocks.map (·.2), ∃ p ∈ c.decls.clocks, k = p.2 + i := by
    intro k hk
    obtain ⟨q, hq, rfl⟩ := List.mem_map.1 hk
    obtain ⟨p, hp, rfl⟩ := List.mem_map.1 hq
    exact ⟨p, hp, rfl⟩
  rw [e] at hx' ⊢
  refine C54_renumbered_partial hc ⟨hb.guards, hb.invs⟩ ?_ ?_ ho ho' hx hx'
  · intro a ha b hb' hab
    obtain ⟨p, _, rfl⟩ := hm a ha
    obtain ⟨q, _, rfl⟩ := hm b hb'
    omega
  · intro a ha
    obtain ⟨p, hp, rfl⟩ := hm a ha
    have := hj p hp
    omega

/-! ### Components that are written and loaded again -/

theorem goodGuard_leftNested {d : Decls} {g : BoolE} (h : GoodGuard d g) : GoodGuard d g.leftNested := by
  have ja : ∀ {l : BoolE}, GoodGuard d l → ∀ {r : BoolE}, GoodGuard d r → GoodGuard d (l.joinAnd r) := by
    intro l hl r
    induction r with
    | and a b iha _ => exact fun h => ⟨iha h.1, h.2⟩
    | _ => exact fun h => ⟨hl, h⟩
  have jo : ∀ {l : BoolE}, GoodGuard d l → ∀ {r : BoolE}, GoodGuard d r → GoodGuard d (l.joinOr r) := by
    intro l hl r
    induction r with
    | or a b iha _ => exact fun h => ⟨iha h.1, h.2⟩
    | _ => exact fun h => ⟨hl, h⟩
  induction g with
  | and l r ihl ihr => exact ja (ihl h.1) (ihr h.2)
  | or l r ihl ihr => exact jo (ihl h.1) (ihr h.2)
  | _ => exact h

theorem namesOnly_leftNested {g : BoolE} (h : g.NamesOnly) : g.leftNested.NamesOnly := by
  have ja : ∀ {l : BoolE}, l.NamesOnly → ∀ {r : BoolE}, r.NamesOnly → (l.joinAnd r).NamesOnly := by
    intro l hl r
    induction r with
    | and a b iha _ => exact fun h => ⟨iha h.1, h.2⟩
    | _ => exact fun h => ⟨hl, h⟩
  have jo : ∀ {l : BoolE}, l.NamesOnly → ∀ {r : BoolE}, r.NamesOnly → (l.joinOr r).NamesOnly := by
    intro l hl r
    induction r with
    | or a b iha _ => exact fun h => ⟨iha h.1, h.2⟩
    | _ => exact fun h => ⟨hl, h⟩
  induction g with
  | and l r ihl ihr => exact ja (ihl h.1) (ihr h.2)
  | or l r ihl ihr => exact jo (ihl h.1) (ihr h.2)
  | _ => exact h

theorem readBack_clear {c : Component} {n : Nat} (hc : c.Clear n) (hp : c.Portable) {n' : Nat}
    (hn : c.decls.clocks.length < n') : c.readBack.Clear n' := by
  have hclk : c.readBack.decls.clocks.map (·.2) = List.range' 1 c.decls.clockNames.length := by
    show (c.decls.clockNames.zip (List.range' 1 c.decls.clockNames.length)).map Prod.snd = _
    rw [List.map_snd_zip]
    simp
  have hg : ∀ {g0 : Option BoolE}, GuardPortable g0 → (∀ b, g0 = some b → GoodGuard c.decls b) → ∀ g,
      BoolE.readBack g0 = some g → g.NamesOnly ∧ GoodGuard c.readBack.decls g := by
    intro g0 h1 h2 g hg
    cases g0 with
    | none => cases hg
    | some b =>
      cases hg
      have := namesOnly_leftNested (h1 b rfl).namesOnly
      exact ⟨this, goodGuard_renumber (readBack_names c) hp.ints.symm this (goodGuard_leftNested (h2 b rfl))⟩
  have he : ∀ e ∈ c.readBack.edges, ∃ e0 ∈ c.edges, e = { e0 with guard := BoolE.readBack e0.guard } := by
    intro e he
    obtain ⟨e0, h0, rfl⟩ := List.mem_map.1 he
    exact ⟨e0, h0, rfl⟩
  have hl : ∀ l ∈ c.readBack.locations, ∃ l0 ∈ c.locations, l = { l0 with invariant := BoolE.readBack l0.invariant } := by
    intro l hl
    obtain ⟨l0, h0, rfl⟩ := List.mem_map.1 hl
    exact ⟨l0, h0, rfl⟩
  refine ⟨⟨?_, ?_, ?_, ?_⟩, ?_, ?_, ?_, ?_, ?_⟩
  · intro p hp'
    have : p.2 ∈ c.readBack.decls.clocks.map (·.2) := List.mem_map_of_mem hp'
    rw [hclk, List.mem_range'_1] at this
    have hlen : c.decls.clockNames.length = c.decls.clocks.length := List.length_map ..
    omega
  · intro e h g hg'
    obtain ⟨e0, h0, rfl⟩ := he e h
    exact namesOnly_clocksIn (hg (hp.guards e0 h0) (hc.guards e0 h0) g hg').1 _
  · intro l h g hg'
    obtain ⟨l0, h0, rfl⟩ := hl l h
    exact namesOnly_clocksIn (hg (hp.invariants l0 h0) (hc.invs l0 h0) g hg').1 _
  · intro e h
    obtain ⟨e0, h0, rfl⟩ := he e h
    exact hc.ok.updates e0 h0
  · intro e h g hg'
    obtain ⟨e0, h0, rfl⟩ := he e h
    exact (hg (hp.guards e0 h0) (hc.guards e0 h0) g hg').2
  · intro l h g hg'
    obtain ⟨l0, h0, rfl⟩ := hl l h
    exact (hg (hp.invariants l0 h0) (hc.invs l0 h0) g hg').2
  · show ((c.locations.map fun l => { l with invariant := BoolE.readBack l.invariant }).map Location.id).Nodup
    rw [List.map_map]
    exact hc.ids
  · intro l h l' h'
    obtain ⟨l0, h0, rfl⟩ := hl l h
    obtain ⟨l0', h0', rfl⟩ := hl l' h'
    exact hc.initial l0 h0 l0' h0'
  · rw [hclk]
    exact List.nodup_range'

/-- **C54 (part), files.** A component of the kind that can be written to a file and loaded again (see C53) behaves after
loading as it did before. -/
theorem C54_loaded_partial {c : Component} (hc : c.Clear (dim F)) (hp : c.Portable)
    (hn : c.decls.clocks.length < dim G) : ∃ raw c', c.write = .ok raw ∧ raw.read = .ok c' ∧
      ∀ {order : List (LocId × LocTree F) → List (LocId × LocTree F)}, (∀ l, (order l).Perm l) →
      ∀ {order' : List (LocId × LocTree G) → List (LocId × LocTree G)}, (∀ l, (order' l).Perm l) →
      ∀ {id id' : Nat} {x : CompComp F} {x' : CompComp G}, CompComp.compile order c id = .ok x →
        CompComp.compile order' c' id' = .ok x' →
        (Sys.comp x).ts.EquivalentUpTo (Sys.comp x').ts (AgreeOn c.decls c'.decls) := by
  obtain ⟨raw, h1, h2⟩ := component_back hp
  exact ⟨raw, _, h1, h2, fun ho _ ho' _ _ _ _ hx hx' =>
    C54_behaviour_partial (readBack_same hp) hc (readBack_clear hc hp hn) ho ho' hx hx'⟩

/-! ## A concrete case -/

theorem exPortable_clear : exPortable.Clear (dim Fed4) := by
  have kx : IsClock exPortable.decls (.var "x") 1 := .inr ⟨"x", rfl, by decide⟩
  have ky : IsClock exPortable.decls (.var "y") 2 := .inr ⟨"y", rfl, by decide⟩
  refine ⟨⟨?_, ?_, ?_, ?_⟩, ?_, ?_, by decide +kernel, by decide +kernel, by decide +kernel⟩
  · intro p hp
    simp only [exPortable, List.mem_cons, List.not_mem_nil, or_false] at hp
    rcases hp with rfl | rfl <;> exact ⟨by decide, by decide⟩
  · intro e he g hg
    rw [List.mem_singleton.1 he] at hg
    cases hg
    simp [BoolE.ClocksIn, Arith.ClocksIn]
  · intro l hl g hg
    simp only [exPortable, List.mem_cons, List.not_mem_nil, or_false] at hl
    rcases hl with rfl | rfl
    · cases hg; simp [BoolE.ClocksIn, Arith.ClocksIn]
    · cases hg
  · intro e he us hus u hu k hk
    rw [List.mem_singleton.1 he] at hus
    cases hus
    rw [List.mem_singleton.1 hu] at hk
    cases hk
    decide
  · intro e he g hg
    rw [List.mem_singleton.1 he] at hg
    cases hg
    exact ⟨.posConst (.chain (.clock kx)) rfl, .posConst (.chain (.clock ky)) rfl, trivial⟩
  · intro l hl g hg
    simp only [exPortable, List.mem_cons, List.not_mem_nil, or_false] at hl
    rcases hl with rfl | rfl
    · cases hg; exact .posConst (.chain (.clock kx)) rfl
    · cases hg

/-- The component, and the one that is loaded after it was written (its clocks have changed numbers), compile: the
hypotheses of the theorems are met. -/
example : ∃ (x x' : CompComp Fed4), CompComp.compile id exPortable 0 = .ok x ∧
    CompComp.compile id exPortable.readBack 0 = .ok x' ∧ exPortable.readBack.decls.clocks = [("y", 1), ("x", 2)] ∧
    (Sys.comp x).ts.EquivalentUpTo (Sys.comp x').ts (AgreeOn exPortable.decls exPortable.readBack.decls) := by
  have h1 : ∃ x : CompComp Fed4, CompComp.compile id exPortable 0 = .ok x := ⟨_, rfl⟩
  have h2 : ∃ x : CompComp Fed4, CompComp.compile id exPortable.readBack 0 = .ok x := ⟨_, rfl⟩
  obtain ⟨x, h1⟩ := h1
  obtain ⟨x', h2⟩ := h2
  exact ⟨x, x', h1, h2, rfl, C54_behaviour_partial (readBack_same exPortable_portable) exPortable_clear
    (readBack_clear exPortable_clear exPortable_portable (by decide)) (fun _ => .refl _) (fun _ => .refl _) h1 h2⟩

/-- Its guards mention clocks by name: the hypotheses of `C54_renumbered_partial` and `C54_position_partial` are met. -/
example : exPortable.ByName :=
  ⟨fun e he g hg => (exPortable_portable.guards e he g hg).namesOnly,
    fun l hl g hg => (exPortable_portable.invariants l hl g hg).namesOnly⟩

end Reveaal
