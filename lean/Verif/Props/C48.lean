import Verif.Props.C30

/-!
# C48 A saved component behaves like the system it was saved from
-/

namespace Reveaal
open ZoneLib
variable {F : Type} [ZoneLib F]

/-! ## Initial locations -/

theorem combine_initial {a b : LocType} : a.combine b = .initial ↔ a = .initial ∧ b = .initial := by
  cases a <;> cases b <;> simp [LocType.combine]

theorem compose_ty {a b x : LocTree F} {k : CompType} (h : LocTree.compose a b k = .ok x) :
    x.ty = a.ty.combine b.ty := by
  cases k <;> simp only [LocTree.compose, Except.ok.injEq, reduceCtorEq] at h <;> rw [← h] <;> rfl

theorem initial_find {order : List (LocId × LocTree F) → List (LocId × LocTree F)} {c : Component}
    {ins outs : List String} {id : Nat} {x : CompComp F} (h : CompComp.compileWith order c ins outs id = .ok x) :
    x.initial = (x.locations.map (·.2)).find? fun l => l.isInitial := by
  unfold CompComp.compileWith at h
  split at h
  · cases h
  obtain ⟨locs0, h1, h⟩ := bind_ok h
  obtain ⟨edges, h2, h⟩ := bind_ok h
  cases h
  rfl

/-- A location of initial type is the one the system starts in. -/
theorem Sys.Accepted.initial_iff {s : Sys F} (hs : s.Accepted) (h1 : s.OneInitial) : ∀ l, s.IsLoc l →
    (l.ty = .initial ↔ s.initialLoc = .ok (some l)) := by
  have both : ∀ {l r : Sys F} {a b : LocTree F}, (∀ x, l.IsLoc x → (x.ty = .initial ↔ l.initialLoc = .ok (some x))) →
      (∀ x, r.IsLoc x → (x.ty = .initial ↔ r.initialLoc = .ok (some x))) → l.IsLoc a → r.IsLoc b →
      (a.ty.combine b.ty = .initial ↔ l.initialLoc = .ok (some a) ∧ r.initialLoc = .ok (some b)) := by
    intro l r a b hl hr ha hb
    rw [combine_initial, hl a ha, hr b hb]
  induction hs with
  | @comp order c ins outs id x hok hord hx =>
    rintro l ⟨p, hp, rfl⟩
    show _ ↔ Except.ok x.initial = .ok (some p.2)
    rw [initial_find hx]
    constructor
    · intro hty
      congr 1
      cases hf : (x.locations.map (·.2)).find? fun l => l.isInitial with
      | none =>
        have := List.find?_eq_none.1 hf p.2 (List.mem_map.2 ⟨p, hp, rfl⟩)
        simp [LocTree.isInitial, hty] at this
      | some m =>
        obtain ⟨q, hq, rfl⟩ := List.mem_map.1 (List.mem_of_find?_eq_some hf)
        have := List.find?_some hf
        rw [h1 p hp q hq hty (by simpa [LocTree.isInitial] using this)]
    · intro h
      have := List.find?_some (Except.ok.inj h)
      simpa [LocTree.isInitial] using this
  | @composition l r s hl hr hs ihl ihr =>
    obtain ⟨i, o, lu, ru, cm, rfl⟩ := newComposition_eq hs
    rintro x ⟨a, b, ha, hb, hx⟩
    rw [compose_ty hx, both (ihl h1.1) (ihr h1.2) ha hb]
    simp only [Sys.initialLoc]
    constructor
    · rintro ⟨e1, e2⟩
      rw [e1, e2]
      simp only [ok_bind]
      rw [hx]; rfl
    · intro h
      obtain ⟨o1, e1, h⟩ := bind_ok h
      cases o1 with
      | none => cases h
      | some a' =>
        obtain ⟨o2, e2, h⟩ := bind_ok h
        cases o2 with
        | none => cases h
        | some b' =>
          obtain ⟨x', e3, h⟩ := bind_ok h
          cases h
          simp only [LocTree.compose, Except.ok.injEq] at e3 hx
          rw [← hx] at e3
          injection e3 with _ _ _ ha hb
          exact ⟨by rw [e1, ha], by rw [e2, hb]⟩
  | @conjunction l r s hl hr hs ihl ihr =>
    obtain ⟨i, o, rfl⟩ := newConjunction_eq hs
    rintro x ⟨a, b, ha, hb, hx⟩
    rw [compose_ty hx, both (ihl h1.1) (ihr h1.2) ha hb]
    simp only [Sys.initialLoc]
    constructor
    · rintro ⟨e1, e2⟩
      rw [e1, e2]
      simp only [ok_bind]
      rw [hx]; rfl
    · intro h
      obtain ⟨o1, e1, h⟩ := bind_ok h
      cases o1 with
      | none => cases h
      | some a' =>
        obtain ⟨o2, e2, h⟩ := bind_ok h
        cases o2 with
        | none => cases h
        | some b' =>
          obtain ⟨x', e3, h⟩ := bind_ok h
          cases h
          simp only [LocTree.compose, Except.ok.injEq] at e3 hx
          rw [← hx] at e3
          injection e3 with _ _ _ ha hb
          exact ⟨by rw [e1, ha], by rw [e2, hb]⟩
  | @quotient t s' q clock ht hs' hc1 hc2 hq ihl ihr =>
    obtain ⟨i, o, n, rfl⟩ := newQuotient_eq hq
    rintro x (⟨a, b, ha, hb, rfl⟩ | rfl | rfl)
    · show a.ty.combine b.ty = .initial ↔ _
      rw [both (ihl h1.1) (ihr h1.2) ha hb]
      simp only [Sys.initialLoc]
      constructor
      · rintro ⟨e1, e2⟩
        rw [e1, e2]
        rfl
      · intro h
        obtain ⟨o1, e1, h⟩ := bind_ok h
        cases o1 with
        | none => cases h
        | some a' =>
          obtain ⟨o2, e2, h⟩ := bind_ok h
          cases o2 with
          | none => cases h
          | some b' =>
            have h := Option.some.inj (Except.ok.inj h)
            unfold LocTree.merge at h
            injection h with _ _ _ ha hb
            exact ⟨by rw [e1, ha], by rw [e2, hb]⟩
    all_goals
      constructor
      · intro h; cases h
      · intro h
        simp only [Sys.initialLoc] at h
        obtain ⟨o1, e1, h⟩ := bind_ok h
        cases o1 with
        | none => cases h
        | some a' =>
          obtain ⟨o2, e2, h⟩ := bind_ok h
          cases o2 with
          | none => cases h
          | some b' => cases h

/-- The initial location of a compiled saved component is the saved initial location. -/
theorem saved_initial {s : Sys F} (hs : s.Accepted) (hn : s.Readable) (h1 : s.OneInitial) {ord : ActionOrder F}
    {trees : List (LocTree F)} (hloc : ∀ l ∈ trees, s.IsLoc l) {c : Component} (hc : SavedAs s ord trees c)
    {order : List (LocId × LocTree F) → List (LocId × LocTree F)} (hord : ∀ l, (order l).Perm l)
    {ins outs : List String} {id : Nat} {x : CompComp F} (hx : CompComp.compileWith order c ins outs id = .ok x)
    {l0 : LocTree F} (hl0 : s.initialLoc = .ok (some l0)) (h0 : l0 ∈ trees) :
    ∃ m, x.initial = some m ∧ SavedTo s trees x l0 m := by
  have hinit := hs.initial_iff h1
  have hxl : ∀ p ∈ x.locations, ∃ l ∈ trees, SavedTo s trees x l p.2 ∧ p.1 = .simple l.id.display ∧
      (p.2.ty = .initial ↔ l.ty = .initial) := by
    intro p hp
    obtain ⟨_, _, hlocs, _⟩ := compileWith_content hord hx
    obtain ⟨hid, loc, hlm, hsimp⟩ := hlocs p hp
    obtain ⟨l, hl, hsl⟩ := forall2_mem_right hc.locs loc hlm
    obtain ⟨q1, q2, _⟩ := saveLocation_spec hsl
    rw [hc.decls] at hsimp
    obtain ⟨inv, hp2, _⟩ := simple_spec hsimp
    refine ⟨l, hl, ⟨hl, ⟨p, hp, rfl⟩, loc, hsl, hsimp⟩, ?_, ?_⟩
    · rw [← hid, hp2]; show LocId.simple loc.id = _; rw [q1]
    · rw [hp2]
      show loc.ty = .initial ↔ _
      rw [q2, LocTree.isInitial]
      by_cases h : l.ty = .initial <;> simp [h]
  have hex : ∃ p ∈ x.locations, p.1 = .simple l0.id.display := by
    unfold CompComp.compileWith at hx
    split at hx
    · cases hx
    obtain ⟨locs0, h1, hx⟩ := bind_ok hx
    obtain ⟨edges, h2, hx⟩ := bind_ok hx
    cases hx
    obtain ⟨_, _, hb⟩ := buildLocations_spec h1
    obtain ⟨loc, hlm, hsl⟩ := forall2_mem_left hc.locs l0 h0
    obtain ⟨p, hp, he⟩ := List.mem_map.1 (hb loc hlm)
    exact ⟨p, (hord locs0).mem_iff.2 hp, by rw [he, (saveLocation_spec hsl).1]⟩
  rw [initial_find hx]
  cases hf : (x.locations.map (·.2)).find? fun l => l.isInitial with
  | none =>
    obtain ⟨p, hp, he⟩ := hex
    obtain ⟨l, hl, _, he', hty⟩ := hxl p hp
    have : l = l0 := hs.display_inj hn (hloc l hl) (hloc l0 h0) (by
      have := he'.symm.trans he
      simpa using this)
    subst this
    have := List.find?_eq_none.1 hf p.2 (List.mem_map.2 ⟨p, hp, rfl⟩)
    simp [LocTree.isInitial, hty.2 ((hinit l (hloc l hl)).2 hl0)] at this
  | some m =>
    obtain ⟨p, hp, rfl⟩ := List.mem_map.1 (List.mem_of_find?_eq_some hf)
    obtain ⟨l, hl, hsav, _, hty⟩ := hxl p hp
    have hi := List.find?_some hf
    have := (hinit l (hloc l hl)).1 (hty.1 (by simpa [LocTree.isInitial] using hi))
    rw [hl0] at this
    cases this
    exact ⟨_, rfl, hsav⟩

/-! ## The property -/

/-- **C48**: read back and compiled, the component returned by `get-component` behaves like the system: from the
initial location, whatever actions and delays have been performed, both allow the same actions and delays with the
same clock values.  The location names contain none of the characters `( ) | & \ [ ]` unless the system is a single
component, each component has at most one
initial location and `*` is not an action.
Missing: other location names (see `C30_violated_names`) and several initial locations, for which it is false
(`C48_violated_initial`); `*` is no action of a compiled recipe (`Recipe.compile_names`).  Nothing is claimed when saving panics
(`C31_violated_panic`) or compiling overflows. -/
theorem C48_saved_equivalent_partial {s : Sys F} (hs : s.Accepted) (hn : s.Readable) (hd : s.NamesDistinct)
    (h1 : s.OneInitial) (hstar : s.hasAction "*" = false) {ord : ActionOrder F} (ho : ord.For s) {fuel : Nat}
    {name : String} {c : Component} (h : getComponent s ord fuel name = .ok c) {l0 : LocTree F}
    (hl0 : s.initialLoc = .ok (some l0))
    {order : List (LocId × LocTree F) → List (LocId × LocTree F)} (hord : ∀ l, (order l).Perm l) {id : Nat}
    {x : CompComp F} (hx : CompComp.compile order c id = .ok x) :
    s.ts.Equivalent (Sys.comp x).ts := by
  obtain ⟨trees, c0, ess, h2, _, h3, rfl, _, _⟩ := getComponent_spec h
  obtain ⟨t1, t2, t3, t4⟩ := collect_linked hs ho h2 hl0
  have h4 := h3.remake (name := name)
  have hloc : ∀ l ∈ trees, s.IsLoc l := fun l hl => ((t3 l).1 hl).isLoc hs
  obtain ⟨m, hm, hsm⟩ := saved_initial hs hn h1 hloc h4 hord hx hl0 ((t3 l0).2 (.init hl0))
  refine ⟨_, saved_bisim hs hn hd ho hloc t4 h4 hord ?_ hx, l0, m, hl0, by rw [← hm]; rfl, hsm⟩
  intro e he
  obtain ⟨l, hl, es, hes, id', hid'⟩ := h4.origin e he
  obtain ⟨sync, b, hb, trans, hnb, t, ht, hsv⟩ := (saveEdges_mem hes).2 _ hid'
  obtain ⟨_, _, hsy, hac, _⟩ := (saveEdge_spec hsv).2 _ rfl
  have hbs := ho.mem.1 hb
  have hne : e.action ≠ "*" := by
    intro heq
    have : b = "*" := by rw [← hac]; exact heq
    rw [this, hstar] at hbs
    cases hbs
  have hin : ∀ sy, e.sync = sy → e.action ∈ Component.specificActions _ sy := fun sy hsy' => by
    unfold Component.specificActions
    rw [mem_mkSet]
    exact List.mem_map.2 ⟨e, List.mem_filter.2 ⟨he, by simp [hsy', hne]⟩, rfl⟩
  cases hs' : e.sync with
  | input => simp [hin _ hs']
  | output => simp [hin _ hs']

/-- `(A || B) \\ A` saved and compiled. -/
def exSavedQ : Component := getOk (getComponent sysQ (plainActs sysQ) 12 "Q") (by decide +kernel)
def sysSavedQ : CompComp Fed4 := getOk (CompComp.compile id exSavedQ 0) (by decide +kernel)

omit [ZoneLib F] in
theorem Sys.oneInitial_comp {c : CompComp F} (h : (c.locations.filter fun p => p.2.isInitial).length ≤ 1) :
    (Sys.comp c).OneInitial := by
  intro p hp q hq h1 h2
  have hp' : p ∈ c.locations.filter fun p => p.2.isInitial :=
    List.mem_filter.2 ⟨hp, by simp [LocTree.isInitial, h1]⟩
  have hq' : q ∈ c.locations.filter fun p => p.2.isInitial :=
    List.mem_filter.2 ⟨hq, by simp [LocTree.isInitial, h2]⟩
  generalize (c.locations.filter fun p => p.2.isInitial) = l at h hp' hq'
  match l, h with
  | [], _ => cases hp'
  | [r], _ => rw [List.mem_singleton.1 hp', List.mem_singleton.1 hq']

theorem sysQ_oneInitial : sysQ.OneInitial :=
  ⟨⟨Sys.oneInitial_comp (by decide +kernel), Sys.oneInitial_comp (by decide +kernel)⟩,
    Sys.oneInitial_comp (by decide +kernel)⟩

example : sysQ.Accepted ∧ sysQ.Readable ∧ sysQ.NamesDistinct ∧ sysQ.OneInitial ∧ sysQ.hasAction "*" = false ∧
    (plainActs sysQ).For sysQ ∧ getComponent sysQ (plainActs sysQ) 12 "Q" = .ok exSavedQ ∧
    (∃ l0, sysQ.initialLoc = .ok (some l0)) ∧ CompComp.compile id exSavedQ 0 = .ok sysSavedQ ∧
    exSavedQ.edges.length = 9 := by
  refine ⟨sysQ_accepted, by decide +kernel, by unfold Sys.NamesDistinct; decide +kernel, sysQ_oneInitial,
    by decide +kernel, plainActs_for _, getOk_eq _, ⟨_, rfl⟩, getOk_eq _, by decide +kernel⟩

/-! ## Several initial locations -/

/-- Two locations marked initial; only the first has an edge. -/
def exTwoStarts : Component := ⟨"T", ⟨[], []⟩,
  [⟨"L", none, .initial, "NORMAL"⟩, ⟨"M", none, .initial, "NORMAL"⟩],
  [⟨"e0", "L", "M", .output, none, none, "a"⟩]⟩

def sysTwoStarts : Sys Fed4 := .comp (getOk (CompComp.compile id exTwoStarts 0) (by decide +kernel))
def exTwoSaved : Component := getOk (getComponent sysTwoStarts (plainActs sysTwoStarts) 3 "S") (by decide +kernel)
/-- The saved component compiled, the hash map giving the second location first. -/
def sysTwoSaved : CompComp Fed4 := getOk (CompComp.compile List.reverse exTwoSaved 0) (by decide +kernel)

/-- **C48 is false for components with several initial locations**: which of them is the start depends on the order of a
hash map, so a component saved by `get-component` may start elsewhere when it is compiled again.  Here the system can do
the output `a` at once, what was saved cannot. -/
theorem C48_violated_initial : ∃ (s : Sys Fed4) (ord : ActionOrder Fed4) (c : Component)
    (order : List (LocId × LocTree Fed4) → List (LocId × LocTree Fed4)) (x : CompComp Fed4),
    s.Accepted ∧ s.Readable ∧ s.NamesDistinct ∧ s.hasAction "*" = false ∧ ord.For s ∧
    getComponent s ord 3 "S" = .ok c ∧ (∃ l0, s.initialLoc = .ok (some l0)) ∧ (∀ l, (order l).Perm l) ∧
    CompComp.compile order c 0 = .ok x ∧ ¬ s.ts.Equivalent (Sys.comp x).ts := by
  refine ⟨sysTwoStarts, plainActs sysTwoStarts, exTwoSaved, List.reverse, sysTwoSaved,
    .comp (Component.ok_of_okB (c := exTwoStarts) (by decide)) (fun _ => .refl _) (getOk_eq _), trivial,
    by unfold Sys.NamesDistinct; decide +kernel, by decide +kernel, plainActs_for _, getOk_eq _, ⟨_, rfl⟩,
    fun l => l.reverse_perm, getOk_eq _, ?_⟩
  rintro ⟨R, hR, l, m, hl, hm, hlm⟩
  have hv : Valid (dim Fed4) fun _ => (0 : ℝ) := ⟨rfl, fun _ => le_refl _, fun _ _ => rfl⟩
  have h1 : ∃ t, sysTwoStarts.ts.next l "a" = .ok [t] ∧ t.guard = univ ∧ t.updates = [] ∧ t.target.inv = none := by
    have e : sysTwoStarts.ts.initialLoc = .ok (some (.leaf (.simple "L") none .initial)) := rfl
    rw [e] at hl
    cases hl
    exact ⟨_, rfl, rfl, rfl, rfl⟩
  obtain ⟨t, ht, hg, hu, hi⟩ := h1
  have hact : sysTwoStarts.ts.Act l (fun _ => (0 : ℝ)) "a" t.target (runUpdates t.updates fun _ => (0 : ℝ)) := by
    refine ⟨by decide +kernel, [t], ht, t, List.mem_singleton_self _, ⟨?_, ?_⟩, rfl, rfl⟩
    · rw [hg, den_univ]; exact hv
    · intro i hi'; rw [hi] at hi'; cases hi'
  obtain ⟨m', ⟨_, trans, hn, t', ht', _⟩, _⟩ := hR.left l m hlm _ _ _ _ hv hact
  have h2 : (Sys.comp sysTwoSaved).ts.next m "a" = .ok [] := by
    have e : (Sys.comp sysTwoSaved).ts.initialLoc = .ok (some (.leaf (.simple "M") none .initial)) := rfl
    rw [e] at hm
    cases hm
    rfl
  rw [h2] at hn
  cases hn
  cases ht'

end Reveaal
