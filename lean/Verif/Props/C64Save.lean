import Verif.Props.C64
import Verif.Props.C29

/-!
# C64, queries that answer with a component

The component that a `get-component` or `prune` query answers with behaves like the system the query names.
-/

namespace Reveaal
open ZoneLib
variable {Z : Nat → Type} [∀ d, ZoneLib (Z d)]

/-- The names of the components' locations can be read off the printed name of a location: there is a single component,
or all location names are clean. -/
def Recipe.Readable : Recipe → Prop
  | .component _ _ => True
  | r => ∀ c ∈ r.components, ∀ l ∈ c.locations, CleanName l.id

/-- The clocks of the component have different names, its locations too, and at most one of them is initial. -/
structure Component.Savable (c : Component) : Prop where
  clocks : (c.decls.clocks.map (·.1)).Nodup
  ids : (c.locations.map (·.id)).Nodup
  initial : ∀ l ∈ c.locations, ∀ l' ∈ c.locations, l.ty = .initial → l'.ty = .initial → l.id = l'.id

theorem Component.Reducible.savable {c : Component} {n : Nat} (h : c.Reducible n) : c.Savable :=
  ⟨h.names, h.clear.ids, h.clear.initial⟩

theorem Component.Savable.reduced {c : Component} (h : c.Savable) (rem : List Nat) (g : Nat → Nat) :
    (Component.reduced rem g c).Savable := by
  refine ⟨?_, ?_, ?_⟩
  · show (((c.decls.clocks.filter _).map fun p => (p.1, g p.2)).map (·.1)).Nodup
    rw [List.map_map]
    exact (List.filter_sublist.map _).nodup h.clocks
  · show ((c.locations.map (Location.strip _)).map Location.id).Nodup
    rw [List.map_map]
    exact h.ids
  · intro l hl l' hl' h1 h2
    obtain ⟨l0, hl0, rfl⟩ := List.mem_map.1 hl
    obtain ⟨l1, hl1, rfl⟩ := List.mem_map.1 hl'
    exact h.initial l0 hl0 l1 hl1 h1 h2

theorem Recipe.Readable.reshape {rem : List Nat} {g k : Nat → Nat} : ∀ {r : Recipe}, r.Readable →
    (r.reshape (Component.reduced rem g) k).Readable := by
  have key : ∀ r : Recipe, (∀ c ∈ r.components, ∀ l ∈ c.locations, CleanName l.id) →
      ∀ c ∈ (r.reshape (Component.reduced rem g) k).components, ∀ l ∈ c.locations, CleanName l.id := by
    intro r h c hc l hl
    rw [Recipe.reshape_components] at hc
    obtain ⟨c0, hc0, rfl⟩ := List.mem_map.1 hc
    obtain ⟨l0, hl0, rfl⟩ := List.mem_map.1 hl
    exact h c0 hc0 l0 hl0
  intro r h
  cases r with
  | component => trivial
  | composition l r => exact key (.composition l r) h
  | conjunction l r => exact key (.conjunction l r) h
  | quotient l r q => exact key (.quotient l r q) h

section
variable {F : Type} [ZoneLib F]

/-- What saving needs to know about the names in a system. -/
structure Sys.Savable (s : Sys F) : Prop where
  readable : s.Readable
  clocks : s.NamesDistinct
  initial : s.OneInitial
  star : s.hasAction "*" = false

theorem freshInput_star (ins : List String) (n i : Nat) : Sys.freshInput ins n i ≠ "*" := by
  have key : ∀ i : Nat, s!"quotient_new_input{i}" ≠ "*" := by
    intro i h
    have := congrArg String.length h
    have h2 : (s!"quotient_new_input{i}").length = 18 + (toString i).length := String.length_append _ _
    have h3 : "*".length = 1 := by decide +kernel
    omega
  induction n generalizing i with
  | zero => exact key i
  | succ n ih =>
    unfold Sys.freshInput
    split
    · exact ih _
    · exact key i

omit [ZoneLib F] in
theorem hasAction_star {s : Sys F} (h1 : "*" ∉ s.inputs) (h2 : "*" ∉ s.outputs) : s.hasAction "*" = false := by
  show (s.inputs.contains "*" || s.outputs.contains "*") = false
  simp [h1, h2]

theorem Recipe.compile_names : ∀ {r : Recipe} {env : CompileEnv F} {i j : Nat} {s : Sys F}, env.Perm → r.Ok (dim F) →
    (∀ c ∈ r.components, c.Savable) → r.compile env i = .ok (s, j) →
    ((∀ c ∈ r.components, ∀ l ∈ c.locations, CleanName l.id) → s.CleanNames) ∧ s.NamesDistinct ∧ s.OneInitial ∧
    "*" ∉ s.inputs ∧ "*" ∉ s.outputs
  | .composition l r, env, i, j, s, he, ho, hc, h => by
    obtain ⟨hl, hr⟩ := Recipe.Ok.split (p := l.quotientClocks) (q := r.quotientClocks) ho
    obtain ⟨⟨sl, k⟩, h1, h⟩ := bind_ok h
    obtain ⟨⟨sr, k'⟩, h2, h⟩ := bind_ok h
    obtain ⟨s', h3, h⟩ := bind_ok h
    cases h
    obtain ⟨a1, a2, a3, a4, a5⟩ := compile_names (env := env.sub false) he hl (fun c h => hc c (List.mem_append_left _ h)) h1
    obtain ⟨b1, b2, b3, b4, b5⟩ := compile_names (env := env.sub true) he hr (fun c h => hc c (List.mem_append_right _ h)) h2
    obtain ⟨_, rfl⟩ := Sys.newComposition_eq h3
    refine ⟨fun hn => ⟨a1 fun c h => hn c (List.mem_append_left _ h), b1 fun c h => hn c (List.mem_append_right _ h)⟩,
      fun d hd => ?_, ⟨a3, b3⟩, fun hm => ?_, fun hm => ?_⟩
    · rcases List.mem_append.1 hd with hd | hd
      · exact a2 d hd
      · exact b2 d hd
    · rcases List.mem_append.1 (mem_mkSet.1 hm) with hm | hm
      · exact a4 (List.mem_filter.1 hm).1
      · exact b4 (List.mem_filter.1 hm).1
    · rcases mem_setUnion.1 hm with hm | hm
      · exact a5 hm
      · exact b5 hm
  | .conjunction l r, env, i, j, s, he, ho, hc, h => by
    obtain ⟨hl, hr⟩ := Recipe.Ok.split (p := l.quotientClocks) (q := r.quotientClocks) ho
    obtain ⟨⟨sl, k⟩, h1, h⟩ := bind_ok h
    obtain ⟨⟨sr, k'⟩, h2, h⟩ := bind_ok h
    obtain ⟨s', h3, h⟩ := bind_ok h
    cases h
    obtain ⟨a1, a2, a3, a4, a5⟩ := compile_names (env := env.sub false) he hl (fun c h => hc c (List.mem_append_left _ h)) h1
    obtain ⟨b1, b2, b3, b4, b5⟩ := compile_names (env := env.sub true) he hr (fun c h => hc c (List.mem_append_right _ h)) h2
    obtain ⟨_, _, rfl⟩ := Sys.newConjunction_eq (newConjunction_unchecked h3)
    refine ⟨fun hn => ⟨a1 fun c h => hn c (List.mem_append_left _ h), b1 fun c h => hn c (List.mem_append_right _ h)⟩,
      fun d hd => ?_, ⟨a3, b3⟩, fun hm => a4 (mem_setInter.1 hm).1, fun hm => a5 (mem_setInter.1 hm).1⟩
    rcases List.mem_append.1 hd with hd | hd
    · exact a2 d hd
    · exact b2 d hd
  | .quotient l r q, env, i, j, s, he, ho, hc, h => by
    obtain ⟨hl, hr, _, _⟩ := Recipe.Ok.quotient ho
    obtain ⟨⟨sl, k⟩, h1, h⟩ := bind_ok h
    obtain ⟨⟨sr, k'⟩, h2, h⟩ := bind_ok h
    obtain ⟨s', h3, h⟩ := bind_ok h
    cases h
    obtain ⟨a1, a2, a3, a4, a5⟩ := compile_names (env := env.sub false) he hl (fun c h => hc c (List.mem_append_left _ h)) h1
    obtain ⟨b1, b2, b3, b4, b5⟩ := compile_names (env := env.sub true) he hr (fun c h => hc c (List.mem_append_right _ h)) h2
    obtain ⟨_, rfl⟩ := Sys.newQuotient_eq (newQuotient_unchecked h3)
    refine ⟨fun hn => ⟨a1 fun c h => hn c (List.mem_append_left _ h), b1 fun c h => hn c (List.mem_append_right _ h)⟩,
      fun d hd => ?_, ⟨a3, b3⟩, fun hm => ?_, fun hm => ?_⟩
    · rcases List.mem_append.1 hd with hd | hd
      · rcases List.mem_append.1 hd with hd | hd
        · exact a2 d hd
        · exact b2 d hd
      · rw [List.mem_singleton.1 hd]
        exact List.nodup_singleton _
    · rcases mem_setUnion.1 hm with hm | hm
      · rcases mem_setUnion.1 hm with hm | hm
        · exact a4 hm
        · exact b5 hm
      · exact freshInput_star _ _ _ (List.mem_singleton.1 hm).symm
    · rcases mem_setUnion.1 hm with hm | hm
      · exact a5 (mem_setDiff.1 hm).1
      · exact b4 (mem_setDiff.1 hm).1
  | .component c id, env, i, j, s, he, ho, hc, h => by
    obtain ⟨x, h1, h⟩ := bind_ok h
    cases h
    have hs := hc c (List.mem_singleton.2 rfl)
    obtain ⟨xi, xo, hlocs, _⟩ := compileWith_content (he i) h1
    have hd : x.decls = c.decls := by
      unfold CompComp.compile CompComp.compileWith at h1
      split at h1
      · cases h1
      obtain ⟨locs0, _, h1⟩ := bind_ok h1
      obtain ⟨edges, _, h1⟩ := bind_ok h1
      cases h1
      rfl
    refine ⟨fun hn p hp n hpn => ?_, fun d hd' => ?_, fun p hp q hq h2 h3 => ?_, ?_, ?_⟩
    · obtain ⟨hid, loc, hl, hsim⟩ := hlocs p hp
      obtain ⟨inv, h4, _⟩ := simple_spec hsim
      rw [← hid, h4] at hpn
      cases hpn
      exact hn c (List.mem_singleton.2 rfl) loc hl
    · rw [show d = c.decls from (List.mem_singleton.1 hd').trans hd]
      exact hs.clocks
    · obtain ⟨_, loc, hl, hsim⟩ := hlocs p hp
      obtain ⟨_, loc', hl', hsim'⟩ := hlocs q hq
      obtain ⟨inv, h4, _⟩ := simple_spec hsim
      obtain ⟨inv', h5, _⟩ := simple_spec hsim'
      rw [h4] at h2
      rw [h5] at h3
      have heq := hs.initial loc hl loc' hl' h2 h3
      have : loc = loc' := List.inj_on_of_nodup_map hs.ids hl hl' heq
      subst this
      rw [hsim] at hsim'
      exact Except.ok.inj hsim'
    · show "*" ∉ x.inputs
      rw [xi]
      unfold Component.specificActions
      simp [mem_mkSet]
    · show "*" ∉ x.outputs
      rw [xo]
      unfold Component.specificActions
      simp [mem_mkSet]

theorem Recipe.compile_savable {r : Recipe} {env : CompileEnv F} {i j : Nat} {s : Sys F} (he : env.Perm)
    (ho : r.Ok (dim F)) (hn : r.Readable) (hc : ∀ c ∈ r.components, c.Savable) (h : r.compile env i = .ok (s, j)) :
    s.Savable := by
  obtain ⟨h1, h2, h3, h4, h5⟩ := Recipe.compile_names he ho hc h
  refine ⟨?_, h2, h3, hasAction_star h4 h5⟩
  cases r with
  | component c id =>
    obtain ⟨x, _, h⟩ := bind_ok h
    cases h
    trivial
  | composition l r => exact (h1 hn).readable
  | conjunction l r => exact (h1 hn).readable
  | quotient l r q => exact (h1 hn).readable

/-- A system that has been pruned can be saved. -/
theorem pruned_savable {s : Sys F} (hs : s.Accepted) (hv : s.Savable) {work : List String → Component → Res Component}
    {order : List (LocId × LocTree F) → List (LocId × LocTree F)} (hord : ∀ l, (order l).Perm l)
    {ord : ActionOrder F} (ho : ord.For s) {checkOrd : List Bool → Orders} {fuel : Nat} {s' : Sys F}
    (h : pruneSystem work order ord checkOrd fuel s = .ok s') : s'.Accepted ∧ s'.Savable := by
  obtain ⟨trees, c, x, h2, h3, h4, rfl⟩ := pruneSystem_spec h
  obtain ⟨ls, h5, h6⟩ := hs.good.all
  rw [h2] at h5; cases h5
  have hloc : ∀ l ∈ trees, s.IsLoc l := fun l hl => (h6 l).1 hl
  have hok := h3.ok hs hv.clocks ho hloc
  have hacc : (Sys.comp x).Accepted := .comp hok hord h4
  obtain ⟨xi, xo, hlocs, _⟩ := compileWith_content hord h4
  refine ⟨hacc, trivial, fun d hd => ?_, fun p hp q hq e1 e2 => ?_, ?_⟩
  · have : x.decls = c.decls := by
      unfold CompComp.compileWith at h4
      split at h4
      · cases h4
      obtain ⟨locs0, _, h4⟩ := bind_ok h4
      obtain ⟨edges, _, h4⟩ := bind_ok h4
      cases h4
      rfl
    rw [show d = c.decls from (List.mem_singleton.1 hd).trans this, h3.decls]
    exact (clockMap_spec hv.clocks).1
  · refine hacc.good.unique _ _ ⟨p, hp, rfl⟩ ⟨q, hq, rfl⟩ ?_
    have key : ∀ p ∈ x.locations, p.2.ty = .initial → ∃ l, s.initialLoc = .ok (some l) ∧ p.2.id = .simple l.id.display := by
      intro p hp hty
      obtain ⟨_, loc, hlm, hsimp⟩ := hlocs p hp
      obtain ⟨l, hl, hsl⟩ := forall2_mem_right h3.locs loc hlm
      obtain ⟨q1, q2, _⟩ := saveLocation_spec hsl
      obtain ⟨inv, hp2, _⟩ := simple_spec hsimp
      refine ⟨l, (hs.initial_iff hv.initial l (hloc l hl)).1 ?_, ?_⟩
      · rw [hp2] at hty
        have : loc.ty = .initial := hty
        rw [q2, LocTree.isInitial] at this
        by_contra hne
        simp [hne] at this
      · rw [hp2, ← q1]; rfl
    obtain ⟨l, a1, a2⟩ := key p hp e1
    obtain ⟨m, b1, b2⟩ := key q hq e2
    rw [a1] at b1
    cases b1
    rw [a2, b2]
  · have := hv.star
    show (x.inputs.contains "*" || x.outputs.contains "*") = false
    rw [xi, xo]
    exact this

theorem TS.Equivalent.trans {A B C : TS F} (h : A.Equivalent B) (k : B.Equivalent C) : A.Equivalent C := by
  obtain ⟨R, hR, l, m, h1, h2, h3⟩ := h
  obtain ⟨S, hS, m', n, k1, k2, k3⟩ := k
  rw [h2] at k1
  cases k1
  refine ⟨fun l n => ∃ m, R l m ∧ S m n, ⟨?_, ?_, ?_⟩, l, n, h1, k2, m, h3, k3⟩
  · rintro l n ⟨m, hr, hs⟩ v hv
    exact (hR.inv l m hr v hv).trans (hS.inv m n hs v hv)
  · rintro l n ⟨m, hr, hs⟩ v a l' v' hv ha
    obtain ⟨m', q1, q2⟩ := hR.left l m hr v a l' v' hv ha
    obtain ⟨n', q3, q4⟩ := hS.left m n hs v a m' v' hv q1
    exact ⟨n', q3, m', q2, q4⟩
  · rintro l n ⟨m, hr, hs⟩ v a n' v' hv ha
    obtain ⟨m', q1, q2⟩ := hS.right m n hs v a n' v' hv ha
    obtain ⟨l', q3, q4⟩ := hR.right l m hr v a m' v' hv q1
    exact ⟨l', q3, m', q4, q2⟩

/-- Systems that cannot be told apart and systems that behave alike, one after the other. -/
theorem TS.Indistinguishable.equivalent {G : Type} [ZoneLib G] {A : TS F} {B C : TS G} {V : Val → Val → Prop}
    (h : A.Indistinguishable B V) (k : B.Equivalent C) : A.EquivalentUpTo C V := by
  obtain ⟨R, hR, hi, _⟩ := h.related
  obtain ⟨S, hS, m, n, k1, k2, k3⟩ := k
  rcases hi with ⟨_, hi⟩ | ⟨l, m', h1, h2, h3⟩
  · rw [hi] at k1; cases k1
  rw [h2] at k1
  cases k1
  refine ⟨fun l n => ∃ m, R l m ∧ S m n, ⟨hR.zero, hR.delay, ?_, ?_, ?_⟩, fun l' hl' => ?_, fun n' hn' => ?_⟩
  · rintro l n ⟨m, hr, hs⟩ v w hv hw hvw
    exact (hR.inv l m hr v w hv hw hvw).trans (hS.inv m n hs w hw)
  · rintro l n ⟨m, hr, hs⟩ v w a l' v' hv hw hvw ha
    obtain ⟨m', w', q1, q2, q3⟩ := hR.left l m hr v w a l' v' hv hw hvw ha
    obtain ⟨n', q4, q5⟩ := hS.left m n hs w a m' w' hw q1
    exact ⟨n', w', q4, ⟨m', q2, q5⟩, q3⟩
  · rintro l n ⟨m, hr, hs⟩ v w a n' w' hv hw hvw ha
    obtain ⟨m', q4, q5⟩ := hS.right m n hs w a n' w' hw ha
    obtain ⟨l', v', q1, q2, q3⟩ := hR.right l m hr v w a m' w' hv hw hvw q4
    exact ⟨l', v', q1, ⟨m', q2, q5⟩, q3⟩
  · rw [h1] at hl'
    cases hl'
    exact ⟨n, k2, m, h3, k3⟩
  · rw [k2] at hn'
    cases hn'
    exact ⟨l, h1, m, h3, k3⟩

end

/-- The orders in which actions and locations are gone through list all of them. -/
structure QueryEnv.FairSaves (X : QueryEnv Z) : Prop where
  saved : ∀ d (s : Sys (Z d)), (X.saved d s).For s
  pruned : ∀ d l, (X.pruned d l).Perm l

/-- What a query that answers with a component does. -/
theorem QueryEnv.componentOf_equivalent (X : QueryEnv Z) (hX : X.FairSaves) {b : Bool} {d : Nat} {s : Sys (Z d)}
    (hs : s.Accepted) (hv : s.Savable) {l₀ : LocTree (Z d)} (hl₀ : s.initialLoc = .ok (some l₀)) {name : Option String}
    {c : Component} (h : X.componentOf b ⟨d, s⟩ name = .ok c)
    {order : List (LocId × LocTree (Z d)) → List (LocId × LocTree (Z d))} (ho : ∀ l, (order l).Perm l) {i : Nat}
    {x : CompComp (Z d)} (hx : CompComp.compile order c i = .ok x) : s.ts.Equivalent (Sys.comp x).ts := by
  unfold QueryEnv.componentOf at h
  dsimp only at h
  cases b with
  | false => exact C48_saved_equivalent_partial hs hv.readable hv.clocks hv.initial hv.star (hX.saved d s) h hl₀ ho hx
  | true =>
    obtain ⟨s', h1, h⟩ := bind_ok h
    obtain ⟨a, v⟩ := pruned_savable hs hv (hX.pruned d) (hX.saved d s) h1
    obtain ⟨_, _, e⟩ := C29_unchanged_partial hs hv.readable hv.clocks hv.initial (hX.pruned d) (hX.saved d s) h1 hl₀
    obtain ⟨m₀, hm₀⟩ : ∃ m, s'.initialLoc = .ok (some m) := by
      obtain ⟨_, _, _, m, _, hm, _⟩ := e
      exact ⟨m, hm⟩
    exact e.trans (C48_saved_equivalent_partial a v.readable v.clocks v.initial v.star (hX.saved d s') h hm₀ ho hx)

/-- **C64** The component that a `get-component` query, or a `prune` query, answers with behaves like the system the
query names: compiled again, over the `d'` clocks that clock reduction leaves, it can do at every time what the system can
do, and nothing else.  For systems with an initial location, and location names without operators and brackets if there is more than one component. -/
theorem C64_component_partial (hZ : ∀ d, dim (Z d) = d + 1) (X : QueryEnv Z) (hX : X.Fair) (hX' : X.FairSaves)
    (load : String → Res Component) (hload : ∀ n c, load n = .ok c → c.decls.Numbered) (e : SaveExpr) (r : Recipe) (d : Nat)
    (q : Option Nat) (hr : getRecipes load [e.system] 0 none = .ok ([r], d, q)) (hc : X.Askable r d q) (hn : r.Readable)
    (s : Sys (Z d)) (hs : r.Means s) (hinit : s.initialLoc ≠ .ok none) (c : Component)
    (h : X.run load (.getComponent e) = .ok (.getComponent c) ∨ X.run load (.prune e) = .ok (.getComponent c))
    (d' : Nat) (hd : ∃ s', X.system load e.system = .ok ⟨d', s'⟩) :
    ∃ V, ∀ (order : List (LocId × LocTree (Z d')) → List (LocId × LocTree (Z d'))), (∀ l, (order l).Perm l) →
      ∀ i x, CompComp.compile order c i = .ok x → s.ts.EquivalentUpTo (Sys.comp x).ts V := by
  obtain ⟨s', h1⟩ := hd
  have key : ∃ b, X.componentOf b ⟨d', s'⟩ e.name = .ok c := by
    rcases h with h | h
    all_goals
      unfold QueryEnv.run at h
      dsimp only at h
      rw [h1, ok_bind] at h
      obtain ⟨c', h2, h⟩ := bind_ok h
      cases h
      exact ⟨_, h2⟩
  obtain ⟨b, h2⟩ := key
  obtain ⟨r', ρ, j, a, h3⟩ := X.system_form hZ hX hload hr hc h1
  obtain ⟨h4, h5, _, h6, _⟩ := a.behaves (hX.compiled d').2.2.1 hs h3
  have hv : s'.Savable := by
    obtain ⟨rem, g, k, q', rfl, _⟩ := a.form
    refine Recipe.compile_savable (hX.compiled d').2.2.1 a.ok' hn.reshape (fun c' hc' => ?_) h3
    rw [Recipe.reshape_components] at hc'
    obtain ⟨c0, hc0, rfl⟩ := List.mem_map.1 hc'
    exact (hc.comps c0 hc0).1.savable.reduced rem g
  obtain ⟨l₀, hl₀⟩ : ∃ l, s'.initialLoc = .ok (some l) := by
    obtain ⟨_, _, hi, _⟩ := h6.related
    rcases hi with ⟨hi, _⟩ | ⟨_, m, _, hm, _⟩
    · exact absurd hi hinit
    · exact ⟨m, hm⟩
  exact ⟨_, fun order ho i x hx => h6.equivalent (X.componentOf_equivalent hX' h5 hv hl₀ h2 ho hx)⟩

/-! ## Concrete cases -/

theorem plainQueries_saves (b : Bool) : (plainQueries (Z := Z) b).FairSaves :=
  ⟨fun _ _ _ => ⟨.refl _, .refl _⟩, fun _ _ => .refl _⟩

/-- The component of an answer. -/
def answeredComponent : Res (QueryOutcome FedD) → Option Component
  | .ok (.getComponent c) => some c
  | _ => none

theorem answeredComponent_eq {x : Res (QueryOutcome FedD)} {c : Component} (h : answeredComponent x = some c) :
    x = .ok (.getComponent c) := by
  unfold answeredComponent at h
  split at h
  · cases h; rfl
  · cases h

def bothAB : SysExpr := .conjunction (.component "A" none) (.component "B" none)
def recAB : Recipe := .conjunction (.component exClient none) (.component (exServer3 1) none)

/-- The consistency checks of operands go through the action `out`. -/
def outQueries : QueryEnv FedD :=
  { plainQueries false with compiled := fun d => { envK (FedD d) with checks := fun _ => ⟨fun _ => ["out"], fun _ => [], fun _ => ["out"]⟩ } }

theorem outQueries_fair : outQueries.Fair :=
  ⟨fun _ => ⟨envK_perm, envK_perm, envK_perm, envK_perm⟩, fun _ s => mem_own s, fun _ s => ⟨ownOrders_fair s, ownOrders_fair s⟩,
    fun _ _ _ => Iff.rfl, fun _ _ _ => Iff.rfl⟩

theorem recAB_askable : outQueries.Askable recAB 3 none := by
  refine ⟨by decide, fun c hc => ?_, (by rintro ⟨⟩), (by rintro ⟨⟩)⟩
  simp only [recAB, Recipe.components, List.mem_append, List.mem_cons, List.not_mem_nil, or_false] at hc
  rcases hc with rfl | rfl
  · exact ⟨exClient_reducible, exClient_agree⟩
  · exact ⟨exServer3_reducible (.inl rfl), exServer3_agree⟩

def sysBothAB : Sys (FedD 3) := (getOk (recAB.compile (outQueries.compiled 3) 0) (by decide +kernel)).1

/-- The conjunction of `A` and `B` as a component. -/
def exBothAB : Component := ⟨"AB", ⟨[], [("x", 1), ("u", 2), ("y", 3)]⟩,
  [⟨"L0&&M0", some (.le (.var "x") (.int 5)), .initial, "NORMAL"⟩],
  [⟨"E0", "L0&&M0", "L0&&M0", .output, some (.and (.ge (.var "x") (.int 2)) (.ge (.var "y") (.int 1))),
    some [⟨"x", .int 0⟩, ⟨"u", .int 0⟩, ⟨"y", .int 0⟩], "out"⟩]⟩

def compBothAB : CompComp (FedD 3) := getOk (CompComp.compile id exBothAB 0) (by decide +kernel)

/-- Non-vacuity: the queries `get-component` and `prune` about the conjunction of `A` and `B` are answered with this component,
it can be compiled, and it behaves like the conjunction. -/
example : outQueries.run loadTwo (.getComponent ⟨bothAB, some "AB"⟩) = .ok (.getComponent exBothAB) ∧
    outQueries.run loadTwo (.prune ⟨bothAB, some "AB"⟩) = .ok (.getComponent exBothAB) ∧
    CompComp.compile id exBothAB 0 = .ok compBothAB ∧ ∃ V, sysBothAB.ts.EquivalentUpTo (Sys.comp compBothAB).ts V := by
  have h1 : outQueries.run loadTwo (.getComponent ⟨bothAB, some "AB"⟩) = .ok (.getComponent exBothAB) :=
    answeredComponent_eq (by decide +kernel)
  have h2 : CompComp.compile id exBothAB 0 = .ok compBothAB := getOk_eq _
  refine ⟨h1, answeredComponent_eq (by decide +kernel), h2, ?_⟩
  have hsys : recAB.compile (outQueries.compiled 3) 0 = .ok (sysBothAB, 2) := rfl
  have hinit : sysBothAB.initialLoc ≠ .ok none := by
    intro h
    have : (match sysBothAB.initialLoc with | .ok none => true | _ => false) = false := by decide +kernel
    rw [h] at this
    cases this
  obtain ⟨V, hV⟩ := C64_component_partial dim_fedD outQueries outQueries_fair
    ⟨(plainQueries_saves (Z := FedD) false).saved, (plainQueries_saves (Z := FedD) false).pruned⟩ loadTwo loadTwo_numbered
    ⟨bothAB, some "AB"⟩ recAB 3 none (by decide +kernel) recAB_askable (by unfold recAB Recipe.Readable; decide +kernel)
    sysBothAB ⟨outQueries.compiled 3, 0, 2, envK_perm, hsys⟩ hinit exBothAB (.inl h1) 3 ⟨sysBothAB, rfl⟩
  exact ⟨V, hV id (fun _ => .refl _) 0 _ h2⟩

end Reveaal
