import Verif.Lemmas.Alike
import Verif.Props.C25
import Verif.Props.C54

/-!
# Components that differ by clock reduction
-/

namespace Reveaal
open ZoneLib
variable {F G : Type} [ZoneLib F] [ZoneLib G]

/-! ## Guards that do not mention the clocks on which two declarations differ -/

theorem isClock_congr {d d' : Decls} {e : Arith} {x : Nat} (hs : SameFor d d' fun n => e.hasVar n)
    (h : IsClock d e x) : IsClock d' e x := by
  rcases h with rfl | ⟨n, rfl, h⟩
  · exact .inl rfl
  · exact .inr ⟨n, rfl, by rw [← hs.2 n (by simp [Arith.hasVar])]; exact h⟩

theorem goodSides_congr {d d' : Decls} {l r : Arith} (hs : SameFor d d' fun n => l.hasVar n || r.hasVar n)
    (h : GoodSides d l r) : GoodSides d' l r := by
  have hc : ∀ {k : Arith}, SameFor d d' (fun n => k.hasVar n) → (constVal d k).isSome → (constVal d' k).isSome :=
    fun hk h => by rwa [← (value_congr (v := zeroVal) _ hk).1]
  have pc : ∀ {e : Arith}, SameFor d d' (fun n => e.hasVar n) → PosChain d e → PosChain d' e := by
    intro e he h
    induction h with
    | clock h => exact .clock (isClock_congr he h)
    | addR _ k ih => exact .addR (ih he.left) (hc he.right k)
    | addL _ k ih => exact .addL (ih he.right) (hc he.left k)
  have nc : ∀ {e : Arith}, SameFor d d' (fun n => e.hasVar n) → NegChain d e → NegChain d' e := by
    intro e he h
    induction h with
    | base h k => exact .base (isClock_congr he.right h) (hc he.left k)
    | addR _ k ih => exact .addR (ih he.left) (hc he.right k)
    | addL _ k ih => exact .addL (ih he.right) (hc he.left k)
    | subR _ k ih => exact .subR (ih he.left) (hc he.right k)
  have ps : ∀ {e : Arith}, SameFor d d' (fun n => e.hasVar n) → PosSide d e → PosSide d' e := by
    intro e he h
    cases h with
    | chain h => exact .chain (pc he h)
    | subR h k => exact .subR (pc he.left h) (hc he.right k)
  have ds : ∀ {e : Arith}, SameFor d d' (fun n => e.hasVar n) → DiffSide d e → DiffSide d' e := by
    intro e he h
    cases h with
    | posSub h1 h2 => exact .posSub (ps he.left h1) (isClock_congr he.right h2)
    | posNeg h1 h2 => exact .posNeg (isClock_congr he.left h1) (nc he.right h2)
    | negPos h1 h2 => exact .negPos (nc he.left h1) (isClock_congr he.right h2)
  cases h with
  | posConst h k => exact .posConst (ps hs.left h) (hc hs.right k)
  | constPos k h => exact .constPos (hc hs.left k) (ps hs.right h)
  | negConst h k => exact .negConst (nc hs.left h) (hc hs.right k)
  | constNeg k h => exact .constNeg (hc hs.left k) (nc hs.right h)
  | posPos h k => exact .posPos (ps hs.left h) (ps hs.right k)
  | negNeg h k => exact .negNeg (nc hs.left h) (nc hs.right k)
  | diffConst h k => exact .diffConst (ds hs.left h) (hc hs.right k)
  | constDiff k h => exact .constDiff (hc hs.left k) (ds hs.right h)

theorem goodGuard_congr {d d' : Decls} {g : BoolE} (hs : SameFor d d' fun n => g.hasVar n) (h : GoodGuard d g) :
    GoodGuard d' g := by
  induction g with
  | and l r ihl ihr => exact ⟨ihl hs.left h.1, ihr hs.right h.2⟩
  | or l r ihl ihr => exact ⟨ihl hs.left h.1, ihr hs.right h.2⟩
  | bool => trivial
  | _ => exact goodSides_congr hs h

/-! ## Removing clocks by name -/

/-- The guard without the clocks `N`: false if it mentions one of them. -/
def BoolE.strip (N : List String) (g : BoolE) : BoolE := if N.any g.hasVar then .bool false else g

/-- The edge without the clocks `N`. -/
def Edge.strip (N : List String) (e : Edge) : Edge :=
  { e with
    guard := e.guard.map (BoolE.strip N)
    update := e.update.map fun us => us.filter fun u => !(N.contains u.var) }

/-- The location without the clocks `N`. -/
def Location.strip (N : List String) (l : Location) : Location :=
  { l with invariant := l.invariant.map (BoolE.strip N) }

/-- The declarations without the clocks `N`. -/
def Decls.strip (N : List String) (d : Decls) : Decls :=
  { d with clocks := d.clocks.filter fun p => !(N.contains p.1) }

/-- The component without the clocks `N`. -/
def Component.strip (N : List String) (c : Component) : Component :=
  { c with
    decls := c.decls.strip N
    edges := c.edges.map (Edge.strip N)
    locations := c.locations.map (Location.strip N) }

/-- The names of the clocks with the given indices. -/
def Decls.namesOf (d : Decls) (is : List Nat) : List String := (d.clocks.filter fun p => is.contains p.2).map (·.1)

/-- The component without the clocks with the given indices. -/
def Component.without (is : List Nat) (c : Component) : Component := c.strip (c.decls.namesOf is)

theorem Decls.mem_namesOf {d : Decls} {is : List Nat} {n : String} :
    n ∈ d.namesOf is ↔ ∃ i ∈ is, (n, i) ∈ d.clocks := by
  unfold Decls.namesOf
  constructor
  · intro h
    obtain ⟨p, hp, rfl⟩ := List.mem_map.1 h
    obtain ⟨h1, h2⟩ := List.mem_filter.1 hp
    exact ⟨p.2, by simpa using h2, h1⟩
  · rintro ⟨i, hi, h⟩
    exact List.mem_map.2 ⟨(n, i), List.mem_filter.2 ⟨h, by simpa using hi⟩, rfl⟩

theorem BoolE.strip_congr {N M : List String} (h : ∀ n, n ∈ N ↔ n ∈ M) (g : BoolE) : g.strip N = g.strip M := by
  have : N.any g.hasVar = M.any g.hasVar := by
    rw [Bool.eq_iff_iff, List.any_eq_true, List.any_eq_true]
    exact ⟨fun ⟨n, a, b⟩ => ⟨n, (h n).1 a, b⟩, fun ⟨n, a, b⟩ => ⟨n, (h n).2 a, b⟩⟩
  unfold BoolE.strip
  rw [this]

theorem Component.strip_congr {N M : List String} (h : ∀ n, n ∈ N ↔ n ∈ M) (c : Component) : c.strip N = c.strip M := by
  have hc : ∀ n, N.contains n = M.contains n := by
    intro n
    rw [Bool.eq_iff_iff, List.contains_iff_mem, List.contains_iff_mem]
    exact h n
  have hg : BoolE.strip N = BoolE.strip M := funext fun g => g.strip_congr h
  have he : Edge.strip N = Edge.strip M := by
    funext e
    unfold Edge.strip
    rw [hg]
    simp only [hc]
  have hl : Location.strip N = Location.strip M := by
    funext e
    unfold Location.strip
    rw [hg]
  unfold Component.strip Decls.strip
  rw [he, hl]
  simp only [hc]

theorem BoolE.strip_strip (N M : List String) (g : BoolE) : (g.strip N).strip M = g.strip (N ++ M) := by
  unfold BoolE.strip
  rw [List.any_append]
  cases N.any g.hasVar with
  | true =>
    simp only [if_true, Bool.true_or]
    split <;> rfl
  | false => simp

theorem Component.strip_strip (N M : List String) (c : Component) : (c.strip N).strip M = c.strip (N ++ M) := by
  have hf : ∀ {α : Type} (f : α → String) (l : List α),
      (l.filter fun x => !(N.contains (f x))).filter (fun x => !(M.contains (f x))) =
        l.filter fun x => !((N ++ M).contains (f x)) := by
    intro α f l
    rw [List.filter_filter]
    congr 1
    funext x
    rw [Bool.eq_iff_iff]
    simp only [Bool.and_eq_true, Bool.not_eq_true', List.contains_eq_mem, decide_eq_false_iff_not, List.mem_append]
    tauto
  have he : ∀ e : Edge, (e.strip N).strip M = e.strip (N ++ M) := by
    intro e
    unfold Edge.strip
    dsimp only
    congr 1
    · cases e.guard with
      | none => rfl
      | some g => exact congrArg some (g.strip_strip N M)
    · cases e.update with
      | none => rfl
      | some us => exact congrArg some (hf (·.var) us)
  have hl : ∀ l : Location, (l.strip N).strip M = l.strip (N ++ M) := by
    intro l
    unfold Location.strip
    dsimp only
    congr 1
    cases l.invariant with
    | none => rfl
    | some g => exact congrArg some (g.strip_strip N M)
  unfold Component.strip Decls.strip
  dsimp only
  congr 1
  · congr 1
    exact hf (fun p : String × Nat => p.1) _
  · rw [List.map_map]
    exact List.map_congr_left fun l _ => hl l
  · rw [List.map_map]
    exact List.map_congr_left fun e _ => he e

theorem Component.strip_nil (c : Component) : c.strip [] = c := by
  have hg : BoolE.strip [] = id := funext fun g => rfl
  have he : Edge.strip [] = id := by
    funext e
    unfold Edge.strip
    rw [hg, Option.map_id]
    cases e with
    | mk a b c d e f g => cases f <;> simp
  have hl : Location.strip [] = id := by
    funext e
    unfold Location.strip
    rw [hg, Option.map_id]
    rfl
  unfold Component.strip Decls.strip
  rw [he, hl]
  cases c
  simp

theorem Component.without_without (is js : List Nat) (c : Component) :
    (c.without is).without js = c.without (is ++ js) := by
  unfold Component.without
  rw [Component.strip_strip]
  refine Component.strip_congr (fun n => ?_) c
  rw [List.mem_append, Decls.mem_namesOf, Decls.mem_namesOf, Decls.mem_namesOf]
  constructor
  · rintro (⟨i, hi, h⟩ | ⟨i, hi, h⟩)
    · exact ⟨i, List.mem_append_left _ hi, h⟩
    · exact ⟨i, List.mem_append_right _ hi, (List.mem_filter.1 h).1⟩
  · rintro ⟨i, hi, h⟩
    by_cases hn : n ∈ c.decls.namesOf is
    · exact .inl (Decls.mem_namesOf.1 hn)
    · rcases List.mem_append.1 hi with hi | hi
      · exact .inl ⟨i, hi, h⟩
      · exact .inr ⟨i, hi, List.mem_filter.2 ⟨h, by simpa using hn⟩⟩

theorem Component.without_other {is : List Nat} {c : Component} (h : ∀ p ∈ c.decls.clocks, p.2 ∉ is) :
    c.without is = c := by
  unfold Component.without
  have : c.decls.namesOf is = [] := by
    rw [List.eq_nil_iff_forall_not_mem]
    intro n hn
    obtain ⟨i, hi, hm⟩ := Decls.mem_namesOf.1 hn
    exact h _ hm hi
  rw [this, Component.strip_nil]

/-- Removing one clock, in a component whose clocks have different indices. -/
theorem removeClock_eq {c : Component} {i : Nat} (hn : (c.decls.clocks.map (·.2)).Nodup)
    (hi : i ∈ c.decls.clocks.map (·.2)) : c.removeClock i = .ok (c.without [i]) := by
  obtain ⟨p, hp, rfl⟩ := List.mem_map.1 hi
  have hname : c.clockName p.2 = some p.1 := by
    unfold Component.clockName
    cases hf : c.decls.clocks.find? fun q => q.2 = p.2 with
    | none => exact absurd (List.find?_eq_none.1 hf p hp) (by simp)
    | some q =>
      have h1 := List.mem_of_find?_eq_some hf
      have h2 : q.2 = p.2 := by simpa using List.find?_some hf
      rw [List.inj_on_of_nodup_map hn h1 hp h2]
      rfl
  have hw : c.without [p.2] = c.strip [p.1] := by
    refine Component.strip_congr (fun n => ?_) c
    rw [Decls.mem_namesOf, List.mem_singleton]
    constructor
    · rintro ⟨i, hi, h⟩
      rw [List.mem_singleton] at hi
      subst hi
      exact congrArg (·.1) (List.inj_on_of_nodup_map hn h hp rfl)
    · rintro rfl
      exact ⟨p.2, by simp, hp⟩
  unfold Component.removeClock
  rw [hname, hw]
  dsimp only
  unfold Component.strip Decls.strip
  have hc : ∀ n : String, (!([p.1].contains n)) = decide (n ≠ p.1) := by
    intro n
    rw [Bool.eq_iff_iff]
    simp
  have hg : ∀ g : BoolE, (if g.hasVar p.1 then BoolE.bool false else g) = g.strip [p.1] := by
    intro g
    unfold BoolE.strip
    simp
  have he : Component.removeFromEdge p.1 = Edge.strip [p.1] := by
    funext e
    unfold Component.removeFromEdge Edge.strip
    simp only [hc, hg]
  have hl : Component.removeFromLocation p.1 = Location.strip [p.1] := by
    funext e
    unfold Component.removeFromLocation Location.strip
    simp only [hg]
  rw [he, hl]
  simp only [hc]

end Reveaal
