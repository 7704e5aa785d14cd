import Verif.Lemmas.Renumber
import Verif.Props.C41
import Verif.Props.C52
import Verif.Props.C04

/-!
# C53: a component that is written to a file and loaded again has the same meaning

*Writing a component to JSON and reading it back gives a component with the same name, clocks, locations and edges, whose
guards, invariants and updates mean the same.*

It is false in general: integers are lost, conjunctions below disjunctions are regrouped, question marks vanish.
-/

namespace Reveaal
open Text

/-- A guard that means the same after it was written and read: comparisons of terms without parentheses, in disjunctions,
in conjunctions (see C04) -/
def GuardPortable (g : Option BoolE) : Prop := ∀ b, g = some b → b.Groups 1

/-- Updates that are read back as they were written (see C52): names or numbers are assigned to variables.  There is no
update with an empty list of assignments. -/
def UpdatePortable (us : Option (List Update)) : Prop := ∀ l, us = some l → l ≠ [] ∧
  ∀ u ∈ l, IsName u.var ∧ ((∃ n, u.expr = .var n ∧ IsName n) ∨ ∃ c, u.expr = .int c ∧ 0 ≤ c ∧ c ≤ 2147483647)

/-- The components for which the property is proved. -/
structure Component.Portable (c : Component) : Prop where
  names : ∀ n ∈ c.decls.clockNames, IsClockName n
  once : c.decls.clockNames.Nodup
  ints : c.decls.ints = []
  types : ∀ l ∈ c.locations, l.ty ≠ .any
  invariants : ∀ l ∈ c.locations, GuardPortable l.invariant
  ends : ∀ e ∈ c.edges, (∃ l ∈ c.locations, l.id = e.source) ∧ ∃ l ∈ c.locations, l.id = e.target
  guards : ∀ e ∈ c.edges, GuardPortable e.guard
  updates : ∀ e ∈ c.edges, UpdatePortable e.update
  actions : ∀ e ∈ c.edges, '!' ∉ e.action.toList ∧ '?' ∉ e.action.toList

theorem BoolE.encode_ne_nil {g : BoolE} {p : Nat} (h : g.Groups p) : g.encode ≠ [] := by
  obtain ⟨h1, h2, _⟩ := BoolE.leftNested_spec h
  obtain ⟨c, cs, h3, _⟩ := h1.head
  rw [← h2, h3]
  simp

/-- The guard that is read back -/
def BoolE.readBack (g : Option BoolE) : Option BoolE := g.map BoolE.leftNested

theorem guard_back {g : Option BoolE} (h : GuardPortable g) :
    decodeGuard (encodeGuard g) = .ok (BoolE.readBack g) ∧ ∀ d v, HoldsOpt d v (BoolE.readBack g) ↔ HoldsOpt d v g := by
  cases g with
  | none => exact ⟨rfl, fun _ _ => Iff.rfl⟩
  | some g =>
    have hg := h g rfl
    obtain ⟨h1, h2, h3⟩ := BoolE.leftNested_spec hg
    refine ⟨?_, h3⟩
    unfold decodeGuard encodeGuard
    dsimp only
    rw [if_neg (BoolE.encode_ne_nil hg), ← h2, C04_roundtrip_partial h1]
    rfl

theorem update_back {us : Option (List Update)} (h : UpdatePortable us) :
    decodeUpdates (encodeUpdates us) = .ok us := by
  cases us with
  | none => rfl
  | some us => exact C52_roundtrip_partial (h us rfl).1 (h us rfl).2

theorem locType_back {t : LocType} (h : t ≠ .any) : ∃ s, encodeLocType t = .ok s ∧ decodeLocType s = .ok t := by
  cases t with
  | any => exact absurd rfl h
  | _ => exact ⟨_, rfl, by decide +kernel⟩

theorem syncType_back (s : SyncType) : decodeSyncType (encodeSyncType s) = .ok s := by
  cases s <;> decide +kernel

theorem sync_back {s : String} (h : '!' ∉ s.toList ∧ '?' ∉ s.toList) : decodeSync s = s := by
  unfold decodeSync
  rw [if_neg (by simpa using h.1), if_neg (by simpa using h.2)]

theorem location_back {l : Location} (ht : l.ty ≠ .any) (hi : GuardPortable l.invariant) :
    ∃ r, l.write = .ok r ∧ r.read = .ok { l with invariant := BoolE.readBack l.invariant } := by
  obtain ⟨s, h1, h2⟩ := locType_back ht
  refine ⟨⟨l.id, encodeGuard l.invariant, s, l.urgency⟩, by unfold Location.write; rw [h1]; rfl, ?_⟩
  unfold RawLocation.read decodeInvariant
  rw [(guard_back hi).1, h2]
  rfl

theorem edge_back {e : Edge} (hg : GuardPortable e.guard) (hu : UpdatePortable e.update)
    (ha : '!' ∉ e.action.toList ∧ '?' ∉ e.action.toList) :
    e.write.read = .ok { e with guard := BoolE.readBack e.guard } := by
  unfold RawEdge.read Edge.write
  dsimp only
  rw [syncType_back, (guard_back hg).1, update_back hu, sync_back ha]
  rfl

theorem mapM_back {α β : Type} {f : α → Res β} {g : β → Res α} {h : α → α} {l : List α}
    (hl : ∀ a ∈ l, ∃ b, f a = .ok b ∧ g b = .ok (h a)) : ∃ m, l.mapM f = .ok m ∧ m.mapM g = .ok (l.map h) := by
  induction l with
  | nil => exact ⟨[], rfl, rfl⟩
  | cons a l ih =>
    obtain ⟨b, h1, h2⟩ := hl a List.mem_cons_self
    obtain ⟨m, h3, h4⟩ := ih fun a ha => hl a (List.mem_cons_of_mem _ ha)
    refine ⟨b :: m, ?_, ?_⟩
    · rw [List.mapM_cons, h1, ok_bind, h3]; rfl
    · rw [List.mapM_cons, h2, ok_bind, h4]; rfl

theorem BoolE.Flat.groups {g : BoolE} {p : Nat} (h : g.Flat p) : g.Groups p := by
  induction g generalizing p with
  | and l r ihl ihr => exact ⟨h.1, ihl h.2.1, ihr (h.2.2.mono (by decide))⟩
  | or l r ihl ihr => exact ⟨h.1, ihl h.2.1, ihr (h.2.2.mono (by decide))⟩
  | bool => trivial
  | _ => exact h

/-- The component that is read back -/
def Component.readBack (c : Component) : Component :=
  ⟨c.name, ⟨[], c.decls.clockNames.zip (List.range' 1 c.decls.clockNames.length)⟩,
    c.locations.map fun l => { l with invariant := BoolE.readBack l.invariant },
    c.edges.map fun e => { e with guard := BoolE.readBack e.guard }⟩

theorem component_back {c : Component} (h : c.Portable) : ∃ r, c.write = .ok r ∧ r.read = .ok c.readBack := by
  obtain ⟨ls, h1, h2⟩ := mapM_back (l := c.locations) fun l hl => location_back (h.types l hl) (h.invariants l hl)
  obtain ⟨es, h3, h4⟩ := mapM_back (l := c.edges) (f := fun e => Except.ok e.write) (g := RawEdge.read)
    fun e he => ⟨_, rfl, edge_back (h.guards e he) (h.updates e he) (h.actions e he)⟩
  have hes : es = c.edges.map Edge.write := by
    have : c.edges.mapM (fun e => (Except.ok e.write : Res RawEdge)) = .ok (c.edges.map Edge.write) := by
      clear h3 h4
      induction c.edges with
      | nil => rfl
      | cons e es ih => rw [List.mapM_cons, ok_bind, ih]; rfl
    rw [this] at h3
    cases h3; rfl
  subst hes
  refine ⟨⟨c.name, encodeDeclarations c.decls, ls, c.edges.map Edge.write⟩, ?_, ?_⟩
  · unfold Component.write
    rw [if_pos, h1]
    · rfl
    · rw [List.all_eq_true]
      intro e he
      obtain ⟨⟨l, hl, hs⟩, ⟨m, hm, ht⟩⟩ := h.ends e he
      rw [Bool.and_eq_true, List.contains_iff_mem, List.contains_iff_mem]
      exact ⟨hs ▸ List.mem_map_of_mem hl, ht ▸ List.mem_map_of_mem hm⟩
  · unfold RawComponent.read
    dsimp only
    rw [C41_roundtrip_partial _ h.names h.once, h2, h4]
    rfl

/-! ## Meaning and numbering -/

theorem Arith.Flat.namesOnly {e : Arith} {p : Nat} (h : e.Flat p) : e.NamesOnly := by
  induction e generalizing p with
  | clock => exact h
  | var => trivial
  | int => trivial
  | _ l r ihl ihr => exact ⟨ihl h.2.1, ihr h.2.2⟩

theorem BoolE.Groups.namesOnly {g : BoolE} {p : Nat} (h : g.Groups p) : g.NamesOnly := by
  induction g generalizing p with
  | and l r ihl ihr => exact ⟨ihl h.2.1, ihr h.2.2⟩
  | or l r ihl ihr => exact ⟨ihl h.2.1, ihr h.2.2⟩
  | bool => trivial
  | _ => exact ⟨h.1.namesOnly, h.2.namesOnly⟩

theorem lookup_isSome_iff {V : Type} {n : String} {m : List (String × V)} :
    (∃ i, m.lookup n = some i) ↔ n ∈ m.map (·.1) := by
  induction m with
  | nil => simp
  | cons p m ih =>
    obtain ⟨k, x⟩ := p
    rw [List.lookup_cons]
    by_cases h : n = k
    · subst h; simp
    · have : (n == k) = false := by simpa using h
      rw [this]
      dsimp only
      rw [ih]
      simp [h]

theorem readBack_names (c : Component) : SameNames c.decls c.readBack.decls := by
  intro n
  rw [lookup_isSome_iff, lookup_isSome_iff]
  show n ∈ (c.decls.clockNames.zip (List.range' 1 c.decls.clockNames.length)).map (·.1) ↔ _
  rw [zip_range_keys]
  rfl

theorem guard_same {d d' : Decls} (hn : SameNames d d') (hi : d'.ints = d.ints) {g : Option BoolE}
    (hg : GuardPortable g) : SameGuard d d' g (BoolE.readBack g) := by
  intro v v' ha
  rw [(guard_back hg).2]
  cases g with
  | none => exact Iff.rfl
  | some g => exact (holds_renumber hn hi ha (hg g rfl).namesOnly).symm

theorem forall2_map_right {α β : Type} {R : α → β → Prop} {f : α → β} {l : List α} (h : ∀ a ∈ l, R a (f a)) :
    List.Forall₂ R l (l.map f) := by
  induction l with
  | nil => exact .nil
  | cons a l ih => exact .cons (h a List.mem_cons_self) (ih fun a ha => h a (List.mem_cons_of_mem _ ha))

theorem readBack_same {c : Component} (h : c.Portable) : c.SameMeaning c.readBack where
  clocks := readBack_names c
  ints := h.ints.symm
  locations := forall2_map_right fun l hl => ⟨rfl, rfl, rfl, guard_same (readBack_names c) h.ints.symm (h.invariants l hl)⟩
  edges := forall2_map_right fun e he =>
    ⟨rfl, rfl, rfl, rfl, guard_same (readBack_names c) h.ints.symm (h.guards e he), rfl⟩

/-- **C53 (part).** A component without integers, whose guards are conjunctions of disjunctions of comparisons, whose
updates assign names or numbers, whose actions contain no `!` or `?` and whose edges connect its locations, is written to
JSON without failure, is read back without failure, and the component that is read has the same name and the same meaning.
Its clocks are numbered from 1 to n.
Missing, and false: `C53_violated_guard`, `C53_violated_ints`, `C53_violated_action`, `C53_violated_ends`. -/
theorem C53_loaded_partial {c : Component} (h : c.Portable) :
    ∃ raw c', c.write = .ok raw ∧ raw.read = .ok c' ∧ c'.name = c.name ∧ c.SameMeaning c' ∧
      c'.decls.clocks = c.decls.clockNames.zip (List.range' 1 c.decls.clockNames.length) := by
  obtain ⟨raw, h1, h2⟩ := component_back h
  exact ⟨raw, _, h1, h2, rfl, readBack_same h, rfl⟩

/-- **C53 (part), exactly.** If moreover its guards group to the left and its clocks are written in the order of their
numbers 1 to n, then the component that is read is the component that was written. -/
theorem C53_exact_partial {c : Component} (h : c.Portable) (hg : ∀ e ∈ c.edges, ∀ g, e.guard = some g → g.Flat 1)
    (hi : ∀ l ∈ c.locations, ∀ g, l.invariant = some g → g.Flat 1)
    (hc : c.decls.clocks.map (·.2) = List.range' 1 c.decls.clocks.length) :
    ∃ raw, c.write = .ok raw ∧ raw.read = .ok c := by
  obtain ⟨raw, h1, h2⟩ := component_back h
  refine ⟨raw, h1, h2.trans (congrArg _ ?_)⟩
  have key : ∀ g : Option BoolE, (∀ b, g = some b → b.Flat 1) → BoolE.readBack g = g := by
    intro g hg
    cases g with
    | none => rfl
    | some b =>
      have hf := hg b rfl
      have h3 := (guard_back (g := some b) fun _ e => by cases e; exact BoolE.Flat.groups hf).1
      unfold decodeGuard encodeGuard at h3
      dsimp only at h3
      rw [if_neg (BoolE.encode_ne_nil (BoolE.Flat.groups hf)), C04_roundtrip_partial hf] at h3
      have h4 : (Except.ok (some b) : Res (Option BoolE)) = .ok (BoolE.readBack (some b)) := h3
      injection h4 with h4
      exact h4.symm
  obtain ⟨name, ⟨ints, clocks⟩, locs, edges⟩ := c
  have hints : ints = [] := h.ints
  subst hints
  unfold Component.readBack Decls.clockNames
  dsimp only at hc hg hi ⊢
  congr 1
  · congr 1
    rw [List.length_map, ← hc, List.zip_map']
    simp
  · conv_rhs => rw [← List.map_id locs]
    refine List.map_congr_left fun l hl => ?_
    rw [key _ (hi l hl)]; rfl
  · conv_rhs => rw [← List.map_id edges]
    refine List.map_congr_left fun e he => ?_
    rw [key _ (hg e he)]; rfl

/-! ## Counterexamples: components that are read, written and read again -/

/-- One location with a loop with the given guard, clocks `x` and `y` -/
def rawLoop (decls : String) (guard : Chars) (sync : String) : RawComponent :=
  ⟨"A", decls, [⟨"l", [], "INITIAL", "NORMAL"⟩], [⟨"E", "l", "l", "OUTPUT", guard, [], sync⟩]⟩

/-- The component that is read from it -/
def loopOf (d : Decls) (g : BoolE) (a : String) : Component :=
  ⟨"A", d, [⟨"l", none, .initial, "NORMAL"⟩], [⟨"E", "l", "l", .output, some g, none, a⟩]⟩

/-- Whether a component is written and what is read back, as a value that can be evaluated -/
def Component.reloaded (c : Component) : Option Component :=
  match c.write with
  | .ok raw =>
    match raw.read with
    | .ok c' => some c'
    | .error _ => none
  | .error _ => none

theorem reloaded_ok {c c' : Component} (h : c.reloaded = some c') : ∃ raw, c.write = .ok raw ∧ raw.read = .ok c' := by
  unfold Component.reloaded at h
  split at h
  · rename_i raw hw
    split at h
    · rename_i c'' hr
      cases h
      exact ⟨raw, hw, hr⟩
    · cases h
  · cases h

/-- What is read, as a value that can be evaluated -/
def RawComponent.loaded (r : RawComponent) : Option Component :=
  match r.read with
  | .ok c => some c
  | .error _ => none

theorem loaded_ok {r : RawComponent} {c : Component} (h : r.loaded = some c) : r.read = .ok c := by
  unfold RawComponent.loaded at h
  split at h
  · cases h; assumption
  · cases h

/-- **C53 is violated.** A component with the guard `(x>=1 && x<=2) || y>=5` is written and read back with the guard
`x>=1 && (x<=2 || y>=5)`. -/
theorem C53_violated_guard : ∃ (raw : RawComponent) (c : Component) (raw' : RawComponent) (c' : Component), raw.read = .ok c ∧ c.write = .ok raw' ∧ raw'.read = .ok c' ∧
    ¬ c.SameMeaning c' := by
  let d : Decls := ⟨[], [("x", 1), ("y", 2)]⟩
  let x : Arith := .var "x"
  let y : Arith := .var "y"
  let g : BoolE := .or (.and (.ge x (.int 1)) (.le x (.int 2))) (.ge y (.int 5))
  let g' : BoolE := .and (.ge x (.int 1)) (.or (.le x (.int 2)) (.ge y (.int 5)))
  have h1 : (rawLoop "clock x, y;" "(x>=1 && x<=2) || y>=5".toList "a").loaded = some (loopOf d g "a") := by
    decide +kernel
  have h2 : (loopOf d g "a").reloaded = some (loopOf d g' "a") := by decide +kernel
  obtain ⟨raw', h3, h4⟩ := reloaded_ok h2
  refine ⟨_, _, raw', _, loaded_ok h1, h3, h4, fun hs => ?_⟩
  have he := hs.edges
  cases he with
  | cons he _ =>
    have hv : AgreeOn d d (fun i => if i = 2 then 6 else 0) (fun i => if i = 2 then 6 else 0) := by
      intro n i i' h h'
      rw [h] at h'
      cases h'
      rfl
    have := (he.guard _ _ hv).1 (.inr ⟨6, 5, by simp [value, List.lookup, d, y, loopOf], by simp [value], by norm_num⟩)
    obtain ⟨⟨a, b, h5, h6, h7⟩, _⟩ := this
    simp [value, x, d, loopOf] at h5 h6
    subst h5; subst h6
    norm_num at h7

/-- **C53 is violated.** The integers of a component are lost: the guard `x<=n` has no meaning any more. -/
theorem C53_violated_ints : ∃ (raw : RawComponent) (c : Component) (raw' : RawComponent) (c' : Component), raw.read = .ok c ∧ c.write = .ok raw' ∧ raw'.read = .ok c' ∧
    ¬ c.SameMeaning c' := by
  let d : Decls := ⟨[("n", 0)], [("x", 1)]⟩
  let g : BoolE := .le (.var "x") (.var "n")
  have h1 : (rawLoop "clock x;int n;" "x<=n".toList "a").loaded = some (loopOf d g "a") := by decide +kernel
  have h2 : (loopOf d g "a").reloaded = some (loopOf ⟨[], [("x", 1)]⟩ g "a") := by decide +kernel
  obtain ⟨raw', h3, h4⟩ := reloaded_ok h2
  exact ⟨_, _, raw', _, loaded_ok h1, h3, h4, fun hs => absurd hs.ints (by decide)⟩

/-- **C53 is violated.** The action of an edge changes: `a?` is loaded again as `a`. -/
theorem C53_violated_action : ∃ (raw : RawComponent) (c : Component) (raw' : RawComponent) (c' : Component), raw.read = .ok c ∧ c.write = .ok raw' ∧ raw'.read = .ok c' ∧
    ¬ c.SameMeaning c' := by
  let d : Decls := ⟨[], [("x", 1)]⟩
  let g : BoolE := .bool true
  have h1 : (rawLoop "clock x;" "true".toList "a?!").loaded = some (loopOf d g "a?") := by decide +kernel
  have h2 : (loopOf d g "a?").reloaded = some (loopOf d g "a") := by decide +kernel
  obtain ⟨raw', h3, h4⟩ := reloaded_ok h2
  refine ⟨_, _, raw', _, loaded_ok h1, h3, h4, fun hs => ?_⟩
  have he := hs.edges
  cases he with
  | cons he _ => exact absurd he.action (by decide +kernel)

/-- **C53 is violated.** A component that was read cannot be written if an edge leads to an unknown location. -/
theorem C53_violated_ends : ∃ (raw : RawComponent) (c : Component) (m : String), raw.read = .ok c ∧ c.write = .error (.panic m) := by
  let raw : RawComponent :=
    ⟨"A", "", [⟨"l", [], "INITIAL", "NORMAL"⟩], [⟨"E", "l", "m", "OUTPUT", [], [], "a"⟩]⟩
  let c : Component := ⟨"A", ⟨[], []⟩, [⟨"l", none, .initial, "NORMAL"⟩], [⟨"E", "l", "m", .output, none, none, "a"⟩]⟩
  exact ⟨raw, c, "called `Option::unwrap()` on a `None` value", loaded_ok (by decide +kernel), by rfl⟩

/-! ## Non-vacuity -/

/-- A component with two locations, an invariant, a guard that groups to the right, and an update -/
def exPortable : Component :=
  ⟨"A", ⟨[], [("y", 2), ("x", 1)]⟩,
    [⟨"l", some (.le (.var "x") (.int 7)), .initial, "NORMAL"⟩, ⟨"m", none, .normal, "NORMAL"⟩],
    [⟨"E", "l", "m", .output, some (.and (.ge (.var "x") (.int 1)) (.and (.lt (.var "y") (.int 4)) (.bool true))),
      some [⟨"x", .int 0⟩], "a"⟩]⟩

theorem exPortable_portable : exPortable.Portable := by
  have nx : IsName "x" := isName_of (c := 'x') (cs := []) (by decide +kernel) (by decide)
  have ny : IsName "y" := isName_of (c := 'y') (cs := []) (by decide +kernel) (by decide)
  constructor
  · intro n hn
    simp only [exPortable, Decls.clockNames, List.map_cons, List.map_nil, List.mem_cons, List.not_mem_nil, or_false] at hn
    rcases hn with rfl | rfl <;>
      exact ⟨by decide +kernel, by decide +kernel, by decide +kernel, by decide +kernel, by decide +kernel⟩
  · decide +kernel
  · rfl
  · decide +kernel
  · intro l hl
    simp only [exPortable, List.mem_cons, List.not_mem_nil, or_false] at hl
    rcases hl with rfl | rfl
    · intro b hb; cases hb; exact ⟨nx, by decide, by decide⟩
    · intro b hb; cases hb
  · decide +kernel
  · intro e he
    rw [List.mem_singleton.1 he]
    intro b hb
    cases hb
    exact ⟨by decide, ⟨nx, by decide, by decide⟩, by decide, ⟨ny, by decide, by decide⟩, trivial⟩
  · intro e he
    rw [List.mem_singleton.1 he]
    intro b hb
    cases hb
    refine ⟨by simp, fun u hu => ?_⟩
    rw [List.mem_singleton.1 hu]
    exact ⟨nx, .inr ⟨0, rfl, by decide, by decide⟩⟩
  · decide +kernel

example : ∃ raw c', exPortable.write = .ok raw ∧ raw.read = .ok c' ∧ c'.name = "A" ∧ exPortable.SameMeaning c' ∧
    c'.decls.clocks = [("y", 1), ("x", 2)] := C53_loaded_partial exPortable_portable

end Reveaal
