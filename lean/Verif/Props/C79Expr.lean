import Verif.Props.C79

/-!
# C79 for expressions: the order and the grouping of the operands in a query do not matter

The clocks of the components of an expression are numbered from left to right, so the systems of `A || B` and `B || A` use
different numbers for the same clocks.
-/

namespace Reveaal
open ZoneLib
variable {F : Type} [ZoneLib F]

theorem Component.reduced_nil_eq (f : Nat → Nat) (c : Component) : c.reduced [] f = c.withClocks f := by
  have h : c.reduced [] id = c := congrFun Component.reduced_nil c
  have h1 : c.without [] = c := by
    have : c.decls.namesOf [] = [] := by
      unfold Decls.namesOf
      simp
    unfold Component.without
    rw [this, Component.strip_nil]
  unfold Component.reduced
  rw [h1]

/-- Renumbering depends on the clocks that are there only. -/
theorem Recipe.reshape_clocks {f g : Nat → Nat} : ∀ {r : Recipe}, (∀ i ∈ r.clockIndices, f i = g i) →
    r.reshape (Component.reduced [] f) id = r.reshape (Component.reduced [] g) id
  | .composition l r, h | .conjunction l r, h | .quotient l r _, h => by
    have h' : ∀ i ∈ l.clockIndices ++ r.clockIndices, f i = g i := fun i hi => h i (by
      unfold Recipe.clockIndices Recipe.components
      rw [List.flatMap_append]
      exact hi)
    unfold Recipe.reshape
    rw [reshape_clocks fun i hi => h' i (List.mem_append_left _ hi), reshape_clocks fun i hi => h' i (List.mem_append_right _ hi)]
  | .component c n, h => by
    unfold Recipe.reshape
    rw [Component.reduced_nil_eq, Component.reduced_nil_eq]
    unfold Component.withClocks
    rw [List.map_congr_left fun p hp => by
      rw [h p.2 (List.mem_flatMap.2 ⟨c, List.mem_singleton.2 rfl, List.mem_map.2 ⟨p, hp, rfl⟩⟩)]]

theorem Recipe.reduced_clockIndices (f : Nat → Nat) (r : Recipe) :
    (r.reshape (Component.reduced [] f) id).clockIndices = r.clockIndices.map f := by
  unfold Recipe.clockIndices
  rw [Recipe.reshape_components, List.flatMap_map, List.map_flatMap]
  refine congrArg (fun g => List.flatMap g r.components) (funext fun c => ?_)
  rw [Component.reduced_nil_eq]
  unfold Component.withClocks
  simp

/-- What an expression is turned into when its clocks start at `k`, and at any other number. -/
theorem recipe_shift {load : String → Res Component} (hload : ∀ n c, load n = .ok c → c.decls.Numbered) :
    ∀ {e : SysExpr} {k k' : Nat} {q q' : Option Nat} {r : Recipe}, e.NoQuotient →
      getSystemRecipe load e k q = .ok (r, k', q') → q' = q ∧ r.quotientClocks = [] ∧ k ≤ k' ∧
        (∀ i ∈ r.clockIndices, k < i ∧ i ≤ k') ∧
        ∀ m p, getSystemRecipe load e m p = .ok (r.reshape (Component.reduced [] fun i => i - k + m) id, k' - k + m, p)
  | .component n id, k, k', q, q', r, _, h => by
    obtain ⟨c, h1, h⟩ := bind_ok h
    cases h
    refine ⟨rfl, rfl, Nat.le_add_right _ _, ?_, fun m p => ?_⟩
    · intro i hi
      obtain ⟨c', hc', hi⟩ := List.mem_flatMap.1 hi
      rw [List.mem_singleton.1 hc'] at hi
      obtain ⟨p, hp, rfl⟩ := List.mem_map.1 hi
      obtain ⟨p, hm, rfl⟩ := List.mem_map.1 hp
      have := (hload n c h1).mem_iff.1 (List.mem_map.2 ⟨p, hm, rfl⟩)
      rw [List.mem_range'_1] at this
      dsimp only
      unfold Component.setClockIndices
      dsimp only
      omega
    · unfold getSystemRecipe
      rw [h1, ok_bind]
      unfold Recipe.reshape
      rw [Component.reduced_nil_eq]
      have e1 : (c.setClockIndices m).1 = ((c.setClockIndices k).1).withClocks fun i => i - k + m := by
        unfold Component.setClockIndices Component.withClocks Decls.setClockIndices
        dsimp only
        rw [List.map_map]
        congr 2
        refine List.map_congr_left fun p _ => ?_
        simp
      have e2 : (c.setClockIndices m).2 = (c.setClockIndices k).2 - k + m := by
        unfold Component.setClockIndices
        dsimp only
        omega
      dsimp only
      rw [e1, e2]
  | .composition e1 e2, k, k', q, q', r, he, h => by
    obtain ⟨⟨r1, k1, q1⟩, h1, h⟩ := bind_ok h
    obtain ⟨⟨r2, k2, q2⟩, h2, h⟩ := bind_ok h
    cases h
    obtain ⟨rfl, a1, b1, c1, d1⟩ := recipe_shift hload he.1 h1
    obtain ⟨rfl, a2, b2, c2, d2⟩ := recipe_shift hload he.2 h2
    refine ⟨rfl, ?_, b1.trans b2, ?_, fun m p => ?_⟩
    · unfold Recipe.quotientClocks; rw [a1, a2]; rfl
    · intro i hi
      have hi : i ∈ r1.clockIndices ++ r2.clockIndices := by
        unfold Recipe.clockIndices at hi ⊢
        rwa [← List.flatMap_append]
      rcases List.mem_append.1 hi with hi | hi
      · have := c1 i hi; omega
      · have := c2 i hi; omega
    · unfold getSystemRecipe
      rw [d1 m p, ok_bind]
      dsimp only
      rw [d2 _ p, ok_bind]
      dsimp only
      rw [Recipe.reshape, show k' - k1 + (k1 - k + m) = k' - k + m by omega,
        Recipe.reshape_clocks (r := r2) (f := fun i => i - k1 + (k1 - k + m)) (g := fun i => i - k + m) fun i hi => by
          have := c2 i hi; omega]
  | .conjunction e1 e2, k, k', q, q', r, he, h => by
    obtain ⟨⟨r1, k1, q1⟩, h1, h⟩ := bind_ok h
    obtain ⟨⟨r2, k2, q2⟩, h2, h⟩ := bind_ok h
    cases h
    obtain ⟨rfl, a1, b1, c1, d1⟩ := recipe_shift hload he.1 h1
    obtain ⟨rfl, a2, b2, c2, d2⟩ := recipe_shift hload he.2 h2
    refine ⟨rfl, ?_, b1.trans b2, ?_, fun m p => ?_⟩
    · unfold Recipe.quotientClocks; rw [a1, a2]; rfl
    · intro i hi
      have hi : i ∈ r1.clockIndices ++ r2.clockIndices := by
        unfold Recipe.clockIndices at hi ⊢
        rwa [← List.flatMap_append]
      rcases List.mem_append.1 hi with hi | hi
      · have := c1 i hi; omega
      · have := c2 i hi; omega
    · unfold getSystemRecipe
      rw [d1 m p, ok_bind]
      dsimp only
      rw [d2 _ p, ok_bind]
      dsimp only
      rw [Recipe.reshape, show k' - k1 + (k1 - k + m) = k' - k + m by omega,
        Recipe.reshape_clocks (r := r2) (f := fun i => i - k1 + (k1 - k + m)) (g := fun i => i - k + m) fun i hi => by
          have := c2 i hi; omega]
  | .quotient _ _, _, _, _, _, _, he, _ => he.elim

theorem recipe_dim_mono {load : String → Res Component} : ∀ {e : SysExpr} {k k' : Nat} {q q' : Option Nat} {r : Recipe},
    getSystemRecipe load e k q = .ok (r, k', q') → k ≤ k'
  | .component n id, k, k', q, q', r, h => by
    obtain ⟨c, h1, h⟩ := bind_ok h
    cases h
    exact Nat.le_add_right _ _
  | .composition e1 e2, k, k', q, q', r, h | .conjunction e1 e2, k, k', q, q', r, h => by
    obtain ⟨⟨r1, k1, q1⟩, h1, h⟩ := bind_ok h
    obtain ⟨⟨r2, k2, q2⟩, h2, h⟩ := bind_ok h
    cases h
    exact (recipe_dim_mono h1).trans (recipe_dim_mono h2)
  | .quotient e1 e2, k, k', q, q', r, h => by
    obtain ⟨⟨r1, k1, q1⟩, h1, h⟩ := bind_ok h
    obtain ⟨⟨r2, k2, q2⟩, h2, h⟩ := bind_ok h
    have := (recipe_dim_mono h1).trans (recipe_dim_mono h2)
    dsimp only at h
    split at h <;> cases h <;> omega

/-! ## Same truths -/

theorem Sys.Good.indistinguishable_self {s : Sys F} (h : s.Good) : s.ts.Indistinguishable s.ts Eq where
  inputs := rfl
  outputs := rfl
  related := by
    refine ⟨Eq, ⟨rfl, ?_, ?_, ?_, ?_⟩, ?_, ?_⟩
    · rintro v _ d rfl; rfl
    · rintro l _ rfl v _ _ _ rfl; exact .rfl
    · rintro l _ rfl v _ a l' v' _ _ rfl ha; exact ⟨l', v', ha, rfl, rfl⟩
    · rintro l _ rfl v _ a l' v' _ _ rfl ha; exact ⟨l', v', ha, rfl, rfl⟩
    · obtain ⟨o, h1, _⟩ := h.initial
      cases o with
      | none => exact .inl ⟨h1, h1⟩
      | some l => exact .inr ⟨l, l, h1, h1, rfl⟩
    · rintro l _ rfl
      exact ⟨rfl, rfl, by rintro v _ _ _ rfl; exact .rfl⟩

theorem Sys.SameTruths.of {s s1 s' : Sys F} {V : Val → Val → Prop} (hs : s.Good) (hs1 : s1.Good)
    (h : s.ts.Indistinguishable s1.ts V) (h' : s1.ts.Same s'.ts) : s.SameTruths s' := by
  obtain ⟨a, b, c, d⟩ := C79_same_answers h'
  refine ⟨fun x => ?_, fun x => ?_, fun t ht => ?_, fun t ht => ?_, ?_, ?_, ?_, fun d => ?_⟩
  · exact (show x ∈ s.ts.inputs ↔ x ∈ s1.ts.inputs by rw [h.inputs]).trans (h'.inputs x)
  · exact (show x ∈ s.ts.outputs ↔ x ∈ s1.ts.outputs by rw [h.outputs]).trans (h'.outputs x)
  · exact (h.refines hs hs1 ht.good ht.good ht.good.indistinguishable_self).trans (a _)
  · exact (ht.good.indistinguishable_self.refines ht.good ht.good hs hs1 h).trans (b _)
  · exact (h.consistent hs hs1).trans c
  · exact (h.deterministic hs hs1).trans d
  · obtain ⟨_, _, h3, _⟩ := h.related
    obtain ⟨_, _, h4⟩ := h'.states
    refine Iff.trans (b := ∃ l, s1.ts.initialLoc = .ok (some l)) ?_ ?_
    · rcases h3 with ⟨e, e'⟩ | ⟨x, y, e, e', _⟩
      · rw [e, e']
      · rw [e, e']; simp
    · rcases h4 with ⟨e, e'⟩ | ⟨x, y, e, e', _⟩
      · rw [e, e']
      · rw [e, e']; simp
  · refine Iff.trans (b := ∃ l, s1.ts.initialLoc = .ok (some l) ∧ TS.CanDelay l zeroVal d) ?_ ?_
    · constructor
      · rintro ⟨l, hl, hd⟩
        obtain ⟨R, _, h3, _⟩ := h.related
        rcases h3 with ⟨e, _⟩ | ⟨x, y, e, e', _⟩
        · rw [e] at hl; cases hl
        · rw [e] at hl; cases hl
          exact ⟨y, e', (h.initial_delay e e').1 hd⟩
      · rintro ⟨l, hl, hd⟩
        obtain ⟨R, _, h3, _⟩ := h.related
        rcases h3 with ⟨_, e⟩ | ⟨x, y, e, e', _⟩
        · rw [e] at hl; cases hl
        · rw [e'] at hl; cases hl
          exact ⟨x, e, (h.initial_delay e e').2 hd⟩
    · obtain ⟨R, hR, h3⟩ := h'.states
      constructor
      · rintro ⟨l, hl, hd⟩
        rcases h3 with ⟨e, _⟩ | ⟨x, y, e, e', hr⟩
        · rw [e] at hl; cases hl
        · rw [e] at hl; cases hl
          exact ⟨y, e', hd.1, fun z p q => (hR.inv hr _).1 (hd.2 z p q)⟩
      · rintro ⟨l, hl, hd⟩
        rcases h3 with ⟨_, e⟩ | ⟨x, y, e, e', hr⟩
        · rw [e] at hl; cases hl
        · rw [e'] at hl; cases hl
          exact ⟨x, e, hd.1, fun z p q => (hR.inv hr _).2 (hd.2 z p q)⟩

theorem Sys.Alike.composition {G : Type} [ZoneLib G] {ρ : ClockMap} {l r s : Sys F} {l' r' s' : Sys G}
    (a1 : Sys.Alike ρ l l') (a2 : Sys.Alike ρ r r')
    (h : Sys.newComposition l r = .ok s) (h' : Sys.newComposition l' r' = .ok s') : Sys.Alike ρ s s' := by
  obtain ⟨_, rfl⟩ := Sys.newComposition_eq h
  obtain ⟨_, rfl⟩ := Sys.newComposition_eq h'
  refine ⟨a1, a2, ?_⟩
  rw [a1.actions.1, a1.actions.2, a2.actions.1, a2.actions.2]
  exact ⟨rfl, rfl, rfl, rfl, rfl⟩

theorem Sys.Alike.conjunction {G : Type} [ZoneLib G] {ρ : ClockMap} {l r s : Sys F} {l' r' s' : Sys G}
    (a1 : Sys.Alike ρ l l') (a2 : Sys.Alike ρ r r')
    (h : Sys.newConjunctionUnchecked l r = .ok s) (h' : Sys.newConjunctionUnchecked l' r' = .ok s') :
    Sys.Alike ρ s s' := by
  obtain ⟨_, _, rfl⟩ := Sys.newConjunction_eq h
  obtain ⟨_, _, rfl⟩ := Sys.newConjunction_eq h'
  refine ⟨a1, a2, ?_⟩
  rw [a1.actions.1, a1.actions.2, a2.actions.1, a2.actions.2]
  exact ⟨rfl, rfl⟩

/-! ## Swapping the operands -/

/-- Where the clocks go when the first `n` clocks after `k` are put behind the `m` clocks that follow. -/
def swapClocks (k n m i : Nat) : Nat := if i ≤ k + n then i + m else i - n

/-- What is known about the two operands of an expression. -/
structure TwoOperands (r1 r2 : Recipe) (k n m : Nat) : Prop where
  noQuot1 : r1.quotientClocks = []
  noQuot2 : r2.quotientClocks = []
  left : ∀ i ∈ r1.clockIndices, k < i ∧ i ≤ k + n
  right : ∀ i ∈ r2.clockIndices, k + n < i ∧ i ≤ k + n + m

namespace TwoOperands
variable {r1 r2 : Recipe} {k n m : Nat} (h : TwoOperands r1 r2 k n m)
include h

theorem clockMap_inj : ((Recipe.composition r1 r2).clockMap [] (swapClocks k n m) 0).Inj := by
  have key : ∀ i x, (Recipe.composition r1 r2).clockMap [] (swapClocks k n m) 0 i = some x →
      (k < i ∧ i ≤ k + n + m) ∧ x = swapClocks k n m i := by
    intro i x hx
    unfold Recipe.clockMap at hx
    rw [if_neg (by simp)] at hx
    split at hx
    · rename_i hi
      cases hx
      refine ⟨?_, rfl⟩
      have hi : i ∈ r1.clockIndices ++ r2.clockIndices := by
        unfold Recipe.clockIndices at hi ⊢
        rwa [← List.flatMap_append]
      rcases List.mem_append.1 hi with hi | hi
      · have := h.left i hi; omega
      · have := h.right i hi; omega
    · rw [if_neg (by unfold Recipe.quotientClocks; rw [h.noQuot1, h.noQuot2]; simp)] at hx
      cases hx
  intro i j x hi hj
  obtain ⟨a, b⟩ := key i x hi
  obtain ⟨c, d⟩ := key j x hj
  rw [b] at d
  unfold swapClocks at d
  split at d <;> split at d <;> omega

theorem disjoint {env env' : CompileEnv F} {i j i' j' : Nat} {s t : Sys F} (hs : r1.compile env i = .ok (s, j))
    (ht : r2.compile env' i' = .ok (t, j')) : s.DisjointClocks t := by
  intro x hx hy
  have h1 := Recipe.compile_clocks hs x hx
  have h2 := Recipe.compile_clocks ht x hy
  rw [h.noQuot1] at h1
  rw [h.noQuot2] at h2
  simp only [List.not_mem_nil, or_false] at h1 h2
  have := h.left x h1
  have := h.right x h2
  omega

/-- The systems of the renumbered operands have no clocks in common. -/
theorem swapped_disjoint {env env' : CompileEnv F} {i j i' j' : Nat} {s t : Sys F}
    (hs : (r1.reshape (Component.reduced [] (swapClocks k n m)) id).compile env i = .ok (s, j))
    (ht : (r2.reshape (Component.reduced [] (swapClocks k n m)) id).compile env' i' = .ok (t, j')) :
    t.DisjointClocks s := by
  intro x hy hx
  have h1 := Recipe.compile_clocks hs x hx
  have h2 := Recipe.compile_clocks ht x hy
  rw [Recipe.reshape_quotientClocks, Recipe.reduced_clockIndices, h.noQuot1] at h1
  rw [Recipe.reshape_quotientClocks, Recipe.reduced_clockIndices, h.noQuot2] at h2
  simp only [List.not_mem_nil, or_false, List.map_nil, List.mem_map] at h1 h2
  obtain ⟨y, hy1, rfl⟩ := h1
  obtain ⟨z, hz, e⟩ := h2
  have := h.left y hy1
  have := h.right z hz
  unfold swapClocks at e
  split at e <;> split at e <;> omega

theorem reduces {N : Nat} {f : Nat → Nat}
    (hc : ∀ c ∈ r1.components ++ r2.components, c.Reducible N) (hf : ∀ i, k < i → i ≤ k + n + m → 0 < f i ∧ f i < N) :
    (Recipe.composition r1 r2).Reduces N N [] f id 0 ∧ r1.Reduces N N [] f id 0 ∧ r2.Reduces N N [] f id 0 := by
  have a1 : r1.Reduces N N [] f id 0 := ⟨⟨fun c hm => (hc c (List.mem_append_left _ hm)).clear.ok, by
      rw [h.noQuot1]; simp⟩, fun c hm => ⟨hc c (List.mem_append_left _ hm), fun _ i hi => by cases hi⟩, fun i hi _ => by
      have := h.left i hi; exact hf i (by omega) (by omega), by rw [h.noQuot1]; simp⟩
  have a2 : r2.Reduces N N [] f id 0 := ⟨⟨fun c hm => (hc c (List.mem_append_right _ hm)).clear.ok, by
      rw [h.noQuot2]; simp⟩, fun c hm => ⟨hc c (List.mem_append_right _ hm), fun _ i hi => by cases hi⟩, fun i hi _ => by
      have := h.right i hi; exact hf i (by omega) (by omega), by rw [h.noQuot2]; simp⟩
  refine ⟨⟨⟨fun c hm => (hc c hm).clear.ok, ?_⟩, fun c hm => ⟨hc c hm, fun _ i hi => by cases hi⟩, ?_, ?_⟩, a1, a2⟩
  · unfold Recipe.quotientClocks; rw [h.noQuot1, h.noQuot2]; simp
  · intro i hi hn
    have hi : i ∈ r1.clockIndices ++ r2.clockIndices := by
      unfold Recipe.clockIndices at hi ⊢
      rwa [← List.flatMap_append]
    rcases List.mem_append.1 hi with hi | hi
    · exact a1.range i hi hn
    · exact a2.range i hi hn
  · unfold Recipe.quotientClocks; rw [h.noQuot1, h.noQuot2]; simp

end TwoOperands

/-- The two recipes of an expression with the operands the one way round and the other. -/
theorem recipe_swap {load : String → Res Component} (hload : ∀ n c, load n = .ok c → c.decls.Numbered)
    {e1 e2 : SysExpr} {k k1 k2 : Nat} {q q1 q2 : Option Nat} {r1 r2 : Recipe} (he1 : e1.NoQuotient) (he2 : e2.NoQuotient)
    (h1 : getSystemRecipe load e1 k q = .ok (r1, k1, q1)) (h2 : getSystemRecipe load e2 k1 q1 = .ok (r2, k2, q2)) :
    ∃ n m, k1 = k + n ∧ k2 = k + n + m ∧ q1 = q ∧ q2 = q ∧ TwoOperands r1 r2 k n m ∧ ∀ p,
      getSystemRecipe load e2 k p = .ok (r2.reshape (Component.reduced [] (swapClocks k n m)) id, k + m, p) ∧
      getSystemRecipe load e1 (k + m) p = .ok (r1.reshape (Component.reduced [] (swapClocks k n m)) id, k2, p) := by
  obtain ⟨rfl, a1, b1, c1, d1⟩ := recipe_shift hload he1 h1
  obtain ⟨rfl, a2, b2, c2, d2⟩ := recipe_shift hload he2 h2
  have e1 : k1 = k + (k1 - k) := by omega
  have e2 : k2 = k + (k1 - k) + (k2 - k1) := by omega
  refine ⟨k1 - k, k2 - k1, e1, e2, rfl, rfl, ⟨a1, a2, fun i hi => ?_, fun i hi => ?_⟩, fun p => ⟨?_, ?_⟩⟩
  · have := c1 i hi; omega
  · have := c2 i hi; omega
  · rw [d2 k p, Recipe.reshape_clocks (g := swapClocks k (k1 - k) (k2 - k1)) fun i hi => ?_, Nat.add_comm]
    have := c2 i hi
    unfold swapClocks
    rw [if_neg (by omega)]
    omega
  · rw [d1 _ p, Recipe.reshape_clocks (g := swapClocks k (k1 - k) (k2 - k1)) fun i hi => ?_,
      show k1 - k + (k + (k2 - k1)) = k2 by omega]
    have := c1 i hi
    unfold swapClocks
    rw [if_pos (by omega)]
    omega

/-- **C79** for queries: `A || B` and `B || A`, whatever `A` and `B` are, as long as there are no quotients in them and
clocks are used in an ordinary way: the same number of clocks is used, and the two systems are the same in all that is
true of them. -/
theorem C79_composition_expr_partial {load : String → Res Component} (hload : ∀ n c, load n = .ok c → c.decls.Numbered)
    {e1 e2 : SysExpr} (he1 : e1.NoQuotient) (he2 : e2.NoQuotient) {k d d' : Nat} {q q' p p' : Option Nat} {r r' : Recipe}
    (hr : getSystemRecipe load (.composition e1 e2) k q = .ok (r, d, q'))
    (hr' : getSystemRecipe load (.composition e2 e1) k p = .ok (r', d', p')) (hd : d < dim F)
    (hc : ∀ c ∈ r.components, c.Reducible (dim F)) {s s' : Sys F} (hs : r.Means s) (hs' : r'.Means s') :
    d' = d ∧ q' = q ∧ p' = p ∧ s.SameTruths s' := by
  obtain ⟨⟨r1, k1, q1⟩, h1, hr⟩ := bind_ok hr
  obtain ⟨⟨r2, k2, q2⟩, h2, hr⟩ := bind_ok hr
  cases hr
  obtain ⟨n, m, rfl, rfl, rfl, rfl, T, hsw⟩ := recipe_swap hload he1 he2 h1 h2
  obtain ⟨g1, g2⟩ := hsw p
  unfold getSystemRecipe at hr'
  rw [g1, ok_bind] at hr'
  dsimp only at hr'
  rw [g2, ok_bind] at hr'
  cases hr'
  refine ⟨rfl, rfl, rfl, ?_⟩
  obtain ⟨R, R1, R2⟩ := T.reduces hc (f := swapClocks k n m) (fun i h1 h2 => by
    unfold swapClocks; split <;> omega)
  have A := (⟨R.ok, fun c hm => ⟨hc c hm, clockMap_on hm, fun _ i hi => by cases hi⟩, fun q hq => R.quot hq, fun hne =>
    absurd (by unfold Recipe.quotientClocks; rw [T.noQuot1, T.noQuot2]; rfl) hne⟩ :
      (Recipe.composition r1 r2).Fit (dim F) [] (swapClocks k n m) id _)
  obtain ⟨A1, A2⟩ := Recipe.Fit.split (l := r1) (r := r2) (x := .composition r1 r2) rfl
    (fun c hc => List.mem_append.2 hc) A
  obtain ⟨env, i, j, he, hs⟩ := hs
  obtain ⟨env', i', j', he', hs'⟩ := hs'
  have acc := Recipe.compile_accepted he R.ok hs
  obtain ⟨⟨s1, j1⟩, x1, hs⟩ := bind_ok hs
  obtain ⟨⟨s2, j2⟩, x2, hs⟩ := bind_ok hs
  obtain ⟨s0, x3, hs⟩ := bind_ok hs
  cases hs
  obtain ⟨⟨t2, j1'⟩, y2, hs'⟩ := bind_ok hs'
  obtain ⟨⟨t1, j2'⟩, y1, hs'⟩ := bind_ok hs'
  obtain ⟨s0', y3, hs'⟩ := bind_ok hs'
  cases hs'
  have al1 := Recipe.compile_alike R.fits (env := env.sub false) (env' := env'.sub true) he he' A1 x1 y1
  have al2 := Recipe.compile_alike R.fits (env := env.sub true) (env' := env'.sub false) he he' A2 x2 y2
  have acc1 := Recipe.compile_accepted (env := env'.sub true) he' R1.reduced_ok y1
  have acc2 := Recipe.compile_accepted (env := env'.sub false) he' R2.reduced_ok y2
  obtain ⟨s1', z3, hsame⟩ := C79_composition_comm acc2 acc1 (T.swapped_disjoint y1 y2) y3
  have al := al1.composition al2 x3 z3
  exact .of acc.good (Sys.Accepted.composition acc1 acc2 z3).good
    (al.indistinguishable acc R.fits fun _ _ _ t _ _ _ _ => T.clockMap_inj.coherent t.updates) hsame.symm

/-- **C79** for queries: `A && B` and `B && A`, whatever `A` and `B` are, as long as there are no quotients in them and
clocks are used in an ordinary way: the same number of clocks is used, and the two systems are the same in all that is
true of them. -/
theorem C79_conjunction_expr_partial {load : String → Res Component} (hload : ∀ n c, load n = .ok c → c.decls.Numbered)
    {e1 e2 : SysExpr} (he1 : e1.NoQuotient) (he2 : e2.NoQuotient) {k d d' : Nat} {q q' p p' : Option Nat} {r r' : Recipe}
    (hr : getSystemRecipe load (.conjunction e1 e2) k q = .ok (r, d, q'))
    (hr' : getSystemRecipe load (.conjunction e2 e1) k p = .ok (r', d', p')) (hd : d < dim F)
    (hc : ∀ c ∈ r.components, c.Reducible (dim F)) {s s' : Sys F} (hs : r.Means s) (hs' : r'.Means s') :
    d' = d ∧ q' = q ∧ p' = p ∧ s.SameTruths s' := by
  obtain ⟨⟨r1, k1, q1⟩, h1, hr⟩ := bind_ok hr
  obtain ⟨⟨r2, k2, q2⟩, h2, hr⟩ := bind_ok hr
  cases hr
  obtain ⟨n, m, rfl, rfl, rfl, rfl, T, hsw⟩ := recipe_swap hload he1 he2 h1 h2
  obtain ⟨g1, g2⟩ := hsw p
  unfold getSystemRecipe at hr'
  rw [g1, ok_bind] at hr'
  dsimp only at hr'
  rw [g2, ok_bind] at hr'
  cases hr'
  refine ⟨rfl, rfl, rfl, ?_⟩
  obtain ⟨R, R1, R2⟩ := T.reduces hc (f := swapClocks k n m) (fun i h1 h2 => by
    unfold swapClocks; split <;> omega)
  have A := (⟨R.ok, fun c hm => ⟨hc c hm, clockMap_on hm, fun _ i hi => by cases hi⟩, fun q hq => R.quot hq, fun hne =>
    absurd (by unfold Recipe.quotientClocks; rw [T.noQuot1, T.noQuot2]; rfl) hne⟩ :
      (Recipe.composition r1 r2).Fit (dim F) [] (swapClocks k n m) id _)
  obtain ⟨A1, A2⟩ := Recipe.Fit.split (l := r1) (r := r2) (x := .composition r1 r2) rfl
    (fun c hc => List.mem_append.2 hc) A
  obtain ⟨env, i, j, he, hs⟩ := hs
  obtain ⟨env', i', j', he', hs'⟩ := hs'
  have acc := Recipe.compile_accepted he (r := .conjunction r1 r2) R.ok hs
  obtain ⟨⟨s1, j1⟩, x1, hs⟩ := bind_ok hs
  obtain ⟨⟨s2, j2⟩, x2, hs⟩ := bind_ok hs
  obtain ⟨s0, x3, hs⟩ := bind_ok hs
  cases hs
  obtain ⟨⟨t2, j1'⟩, y2, hs'⟩ := bind_ok hs'
  obtain ⟨⟨t1, j2'⟩, y1, hs'⟩ := bind_ok hs'
  obtain ⟨s0', y3, hs'⟩ := bind_ok hs'
  cases hs'
  have al1 := Recipe.compile_alike R.fits (env := env.sub false) (env' := env'.sub true) he he' A1 x1 y1
  have al2 := Recipe.compile_alike R.fits (env := env.sub true) (env' := env'.sub false) he he' A2 x2 y2
  have acc1 := Recipe.compile_accepted (env := env'.sub true) he' R1.reduced_ok y1
  have acc2 := Recipe.compile_accepted (env := env'.sub false) he' R2.reduced_ok y2
  obtain ⟨s1', z3, hsame⟩ := C79_conjunction_comm acc2 acc1 (T.swapped_disjoint y1 y2) (newConjunction_unchecked y3)
  have al := al1.conjunction al2 (newConjunction_unchecked x3) z3
  exact .of acc.good (Sys.Accepted.conjunction acc1 acc2 z3).good
    (al.indistinguishable acc R.fits fun _ _ _ t _ _ _ _ => T.clockMap_inj.coherent t.updates) hsame.symm

/-! ## Grouping the operands -/

/-- Nothing is renumbered. -/
theorem Recipe.reduces_id {r : Recipe} {N : Nat} (hq : r.quotientClocks = []) (hc : ∀ c ∈ r.components, c.Reducible N) :
    r.Reduces N N [] id id 0 := by
  have ok : r.Ok N := ⟨fun c hm => (hc c hm).clear.ok, by rw [hq]; simp⟩
  exact ⟨ok, fun c hm => ⟨hc c hm, fun _ i hi => by cases hi⟩, fun i hi _ => clockIndices_lt ok hi, by rw [hq]; simp⟩

theorem Recipe.clockMap_id_inj {r : Recipe} (hq : r.quotientClocks = []) : (r.clockMap [] id 0).Inj := by
  have key : ∀ i x, r.clockMap [] id 0 i = some x → x = i := by
    intro i x hx
    unfold Recipe.clockMap at hx
    rw [if_neg (by simp)] at hx
    split at hx
    · cases hx; rfl
    · rw [hq, if_neg (by simp)] at hx
      cases hx
  intro i j x hi hj
  rw [← key i x hi, ← key j x hj]

/-- Systems that are put together twice from the same recipe are alike. -/
theorem Recipe.compile_twice {r x : Recipe} (hx : x.quotientClocks = []) (hsub : ∀ c ∈ r.components, c ∈ x.components)
    (hq : r.quotientClocks = []) (hc : ∀ c ∈ x.components, c.Reducible (dim F)) {env env' : CompileEnv F} (he : env.Perm)
    (he' : env'.Perm) {i j i' j' : Nat} {s s' : Sys F} (hs : r.compile env i = .ok (s, j))
    (hs' : r.compile env' i' = .ok (s', j')) : Sys.Alike (x.clockMap [] id 0) s s' ∧ s.Accepted ∧ s'.Accepted := by
  have ok : r.Ok (dim F) := ⟨fun c hm => (hc c (hsub c hm)).clear.ok, by rw [hq]; simp⟩
  refine ⟨?_, Recipe.compile_accepted he ok hs, Recipe.compile_accepted he' ok hs'⟩
  refine Recipe.compile_alike (rem := []) (f := id) (h := id) (Recipe.reduces_id hx hc).fits he he' ⟨ok, fun c hm =>
    ⟨hc c (hsub c hm), clockMap_on (hsub c hm), fun _ i hi => by cases hi⟩, by rw [hq]; simp, fun h => absurd hq h⟩ hs
    (i' := i') (j' := j') ?_
  rw [Component.reduced_nil, Recipe.reshape_id]
  exact hs'

/-- Two operands without quotients, numbered one after the other, have no clocks in common. -/
theorem disjoint_of_ranges {r1 r2 : Recipe} (q1 : r1.quotientClocks = []) (q2 : r2.quotientClocks = []) {k : Nat}
    (c1 : ∀ i ∈ r1.clockIndices, i ≤ k) (c2 : ∀ i ∈ r2.clockIndices, k < i) {env env' : CompileEnv F} {i j i' j' : Nat}
    {s t : Sys F} (hs : r1.compile env i = .ok (s, j)) (ht : r2.compile env' i' = .ok (t, j')) : s.DisjointClocks t := by
  intro x hx hy
  have h1 := Recipe.compile_clocks hs x hx
  have h2 := Recipe.compile_clocks ht x hy
  rw [q1] at h1
  rw [q2] at h2
  simp only [List.not_mem_nil, or_false] at h1 h2
  have := c1 x h1
  have := c2 x h2
  omega

/-- **C79** for queries: `(A || B) || C` and `A || (B || C)`, which `A || B || C` might stand for. -/
theorem C79_composition_grouping_partial {load : String → Res Component}
    (hload : ∀ n c, load n = .ok c → c.decls.Numbered) {e1 e2 e3 : SysExpr} (he1 : e1.NoQuotient) (he2 : e2.NoQuotient)
    (he3 : e3.NoQuotient) {k d d' : Nat} {q q' p' : Option Nat} {r r' : Recipe}
    (hr : getSystemRecipe load (.composition (.composition e1 e2) e3) k q = .ok (r, d, q'))
    (hr' : getSystemRecipe load (.composition e1 (.composition e2 e3)) k q = .ok (r', d', p'))
    (hc : ∀ c ∈ r.components, c.Reducible (dim F)) {s s' : Sys F} (hs : r.Means s) (hs' : r'.Means s') :
    d' = d ∧ q' = q ∧ p' = q ∧ s.SameTruths s' := by
  obtain ⟨⟨r12, k2, q2⟩, h12, hr⟩ := bind_ok hr
  obtain ⟨⟨r1, k1, q1⟩, h1, h12⟩ := bind_ok h12
  obtain ⟨⟨r2, k2, q2⟩, h2, h12⟩ := bind_ok h12
  cases h12
  obtain ⟨⟨r3, k3, q3⟩, h3, hr⟩ := bind_ok hr
  cases hr
  unfold getSystemRecipe at hr'
  rw [h1, ok_bind] at hr'
  dsimp only at hr'
  unfold getSystemRecipe at hr'
  rw [h2, ok_bind] at hr'
  dsimp only at hr'
  rw [h3, ok_bind] at hr'
  cases hr'
  obtain ⟨rfl, a1, b1, c1, _⟩ := recipe_shift hload he1 h1
  obtain ⟨rfl, a2, b2, c2, _⟩ := recipe_shift hload he2 h2
  obtain ⟨rfl, a3, b3, c3, _⟩ := recipe_shift hload he3 h3
  refine ⟨rfl, rfl, rfl, ?_⟩
  have hx : (Recipe.composition (.composition r1 r2) r3).quotientClocks = [] := by
    simp only [Recipe.quotientClocks, a1, a2, a3]; rfl
  obtain ⟨env, i, j, he, hs⟩ := hs
  obtain ⟨env', i', j', he', hs'⟩ := hs'
  have acc := Recipe.compile_accepted he (Recipe.reduces_id hx hc).ok hs
  obtain ⟨⟨s12, j2⟩, x12, hs⟩ := bind_ok hs
  obtain ⟨⟨s1, j1⟩, x1, x12⟩ := bind_ok x12
  obtain ⟨⟨s2, j2⟩, x2, x12⟩ := bind_ok x12
  obtain ⟨s12, y12, x12⟩ := bind_ok x12
  cases x12
  obtain ⟨⟨s3, j3⟩, x3, hs⟩ := bind_ok hs
  obtain ⟨s0, y0, hs⟩ := bind_ok hs
  cases hs
  obtain ⟨⟨t1, i1⟩, z1, hs'⟩ := bind_ok hs'
  obtain ⟨⟨t23, i2⟩, z23, hs'⟩ := bind_ok hs'
  obtain ⟨⟨t2, i3⟩, z2, z23⟩ := bind_ok z23
  obtain ⟨⟨t3, i4⟩, z3, z23⟩ := bind_ok z23
  obtain ⟨t23, w23, z23⟩ := bind_ok z23
  cases z23
  obtain ⟨t0, w0, hs'⟩ := bind_ok hs'
  cases hs'
  obtain ⟨al1, ac1, bc1⟩ := Recipe.compile_twice hx (by intro c hm; simp [Recipe.components, hm]) a1 hc
    (env := (env.sub false).sub false) (env' := env'.sub false) he he' x1 z1
  obtain ⟨al2, ac2, bc2⟩ := Recipe.compile_twice hx (by intro c hm; simp [Recipe.components, hm]) a2 hc
    (env := (env.sub false).sub true) (env' := (env'.sub true).sub false) he he' x2 z2
  obtain ⟨al3, ac3, bc3⟩ := Recipe.compile_twice hx (by intro c hm; simp [Recipe.components, hm]) a3 hc
    (env := env.sub true) (env' := (env'.sub true).sub true) he he' x3 z3
  obtain ⟨o1, _⟩ := Sys.newComposition_eq y12
  obtain ⟨o2, _⟩ := Sys.newComposition_eq y0
  obtain ⟨t12, v12⟩ := Sys.newComposition_ok (l := t1) (r := t2) (by rw [al1.actions.2, al2.actions.2]; exact o1)
  have al12 := al1.composition al2 y12 v12
  obtain ⟨t, v0⟩ := Sys.newComposition_ok (l := t12) (r := t3) (by rw [al12.actions.2, al3.actions.2]; exact o2)
  have al := al12.composition al3 y0 v0
  obtain ⟨u23, u0, e1, e2, hsame⟩ := C79_composition_assoc bc1 bc2 bc3
    (disjoint_of_ranges a1 a2 (fun i hi => (c1 i hi).2) (fun i hi => (c2 i hi).1) z1 z2)
    (disjoint_of_ranges a1 a3 (fun i hi => (c1 i hi).2.trans b2) (fun i hi => (c3 i hi).1) z1 z3)
    (disjoint_of_ranges a2 a3 (fun i hi => (c2 i hi).2) (fun i hi => (c3 i hi).1) z2 z3) v12 v0
  rw [w23] at e1
  cases e1
  rw [w0] at e2
  cases e2
  exact .of acc.good (Sys.Accepted.composition (.composition bc1 bc2 v12) bc3 v0).good
    (al.indistinguishable acc (Recipe.reduces_id hx hc).fits fun _ _ _ t _ _ _ _ =>
      (Recipe.clockMap_id_inj hx).coherent t.updates) hsame

/-- **C79** for queries: `(A && B) && C` and `A && (B && C)`, which `A && B && C` might stand for. -/
theorem C79_conjunction_grouping_partial {load : String → Res Component}
    (hload : ∀ n c, load n = .ok c → c.decls.Numbered) {e1 e2 e3 : SysExpr} (he1 : e1.NoQuotient) (he2 : e2.NoQuotient)
    (he3 : e3.NoQuotient) {k d d' : Nat} {q q' p' : Option Nat} {r r' : Recipe}
    (hr : getSystemRecipe load (.conjunction (.conjunction e1 e2) e3) k q = .ok (r, d, q'))
    (hr' : getSystemRecipe load (.conjunction e1 (.conjunction e2 e3)) k q = .ok (r', d', p'))
    (hc : ∀ c ∈ r.components, c.Reducible (dim F)) {s s' : Sys F} (hs : r.Means s) (hs' : r'.Means s') :
    d' = d ∧ q' = q ∧ p' = q ∧ s.SameTruths s' := by
  obtain ⟨⟨r12, k2, q2⟩, h12, hr⟩ := bind_ok hr
  obtain ⟨⟨r1, k1, q1⟩, h1, h12⟩ := bind_ok h12
  obtain ⟨⟨r2, k2, q2⟩, h2, h12⟩ := bind_ok h12
  cases h12
  obtain ⟨⟨r3, k3, q3⟩, h3, hr⟩ := bind_ok hr
  cases hr
  unfold getSystemRecipe at hr'
  rw [h1, ok_bind] at hr'
  dsimp only at hr'
  unfold getSystemRecipe at hr'
  rw [h2, ok_bind] at hr'
  dsimp only at hr'
  rw [h3, ok_bind] at hr'
  cases hr'
  obtain ⟨rfl, a1, b1, c1, _⟩ := recipe_shift hload he1 h1
  obtain ⟨rfl, a2, b2, c2, _⟩ := recipe_shift hload he2 h2
  obtain ⟨rfl, a3, b3, c3, _⟩ := recipe_shift hload he3 h3
  refine ⟨rfl, rfl, rfl, ?_⟩
  have hx : (Recipe.conjunction (.conjunction r1 r2) r3).quotientClocks = [] := by
    simp only [Recipe.quotientClocks, a1, a2, a3]; rfl
  obtain ⟨env, i, j, he, hs⟩ := hs
  obtain ⟨env', i', j', he', hs'⟩ := hs'
  have acc := Recipe.compile_accepted he (Recipe.reduces_id hx hc).ok hs
  obtain ⟨⟨s12, j2⟩, x12, hs⟩ := bind_ok hs
  obtain ⟨⟨s1, j1⟩, x1, x12⟩ := bind_ok x12
  obtain ⟨⟨s2, j2⟩, x2, x12⟩ := bind_ok x12
  obtain ⟨s12, y12, x12⟩ := bind_ok x12
  cases x12
  obtain ⟨⟨s3, j3⟩, x3, hs⟩ := bind_ok hs
  obtain ⟨s0, y0, hs⟩ := bind_ok hs
  cases hs
  obtain ⟨⟨t1, i1⟩, z1, hs'⟩ := bind_ok hs'
  obtain ⟨⟨t23, i2⟩, z23, hs'⟩ := bind_ok hs'
  obtain ⟨⟨t2, i3⟩, z2, z23⟩ := bind_ok z23
  obtain ⟨⟨t3, i4⟩, z3, z23⟩ := bind_ok z23
  obtain ⟨t23, w23, z23⟩ := bind_ok z23
  cases z23
  obtain ⟨t0, w0, hs'⟩ := bind_ok hs'
  cases hs'
  obtain ⟨al1, ac1, bc1⟩ := Recipe.compile_twice hx (by intro c hm; simp [Recipe.components, hm]) a1 hc
    (env := (env.sub false).sub false) (env' := env'.sub false) he he' x1 z1
  obtain ⟨al2, ac2, bc2⟩ := Recipe.compile_twice hx (by intro c hm; simp [Recipe.components, hm]) a2 hc
    (env := (env.sub false).sub true) (env' := (env'.sub true).sub false) he he' x2 z2
  obtain ⟨al3, ac3, bc3⟩ := Recipe.compile_twice hx (by intro c hm; simp [Recipe.components, hm]) a3 hc
    (env := env.sub true) (env' := (env'.sub true).sub true) he he' x3 z3
  replace y12 := newConjunction_unchecked y12
  replace y0 := newConjunction_unchecked y0
  obtain ⟨o1, o1', _⟩ := Sys.newConjunction_eq y12
  obtain ⟨o2, o2', _⟩ := Sys.newConjunction_eq y0
  obtain ⟨t12, v12⟩ := Sys.newConjunction_ok (l := t1) (r := t2) (by rw [al1.actions.1, al2.actions.2]; exact o1)
    (by rw [al1.actions.2, al2.actions.1]; exact o1')
  have al12 := al1.conjunction al2 y12 v12
  obtain ⟨t, v0⟩ := Sys.newConjunction_ok (l := t12) (r := t3) (by rw [al12.actions.1, al3.actions.2]; exact o2)
    (by rw [al12.actions.2, al3.actions.1]; exact o2')
  have al := al12.conjunction al3 y0 v0
  have hsame := C79_conjunction_assoc_partial bc1 bc2 bc3
    (disjoint_of_ranges a1 a2 (fun i hi => (c1 i hi).2) (fun i hi => (c2 i hi).1) z1 z2)
    (disjoint_of_ranges a1 a3 (fun i hi => (c1 i hi).2.trans b2) (fun i hi => (c3 i hi).1) z1 z3)
    (disjoint_of_ranges a2 a3 (fun i hi => (c2 i hi).2) (fun i hi => (c3 i hi).1) z2 z3) v12 v0
    (newConjunction_unchecked w23) (newConjunction_unchecked w0)
  exact .of acc.good (Sys.Accepted.conjunction (.conjunction bc1 bc2 v12) bc3 v0).good
    (al.indistinguishable acc (Recipe.reduces_id hx hc).fits fun _ _ _ t _ _ _ _ =>
      (Recipe.clockMap_id_inj hx).coherent t.updates) hsame

/-! ## Answers -/

section
variable {Z : Nat → Type} [∀ d, ZoneLib (Z d)]

/-- What two systems that are the same for a user say when they are compared with a third one. -/
theorem refinement_answers {X : QueryEnv Z} (hZ : ∀ d, dim (Z d) = d + 1) (hX : X.Fair)
    {load : String → Res Component} (hload : ∀ n c, load n = .ok c → c.decls.Numbered) {a b e : SysExpr} {l l' r r' : Recipe}
    {d d0 : Nat} {q q0 : Option Nat} (hr : getRecipes load [a, e] 0 none = .ok ([l, r], d, q))
    (hr' : getRecipes load [b, e] 0 none = .ok ([l', r'], d0, q0)) (hsame : ∀ (s s' : Sys (Z d)), l.Means s → l'.Means s' →
      s.SameTruths s') (hd : d0 = d) (hq : q0 = q) (hrr : r' = r) (hc : X.Comparable l r d q) (hc' : X.Comparable l' r d q)
    (hl : l.quotientClocks = []) (hl' : l'.quotientClocks = [])
    (hqr : r.Lined) (htl : ∀ c ∈ l.components ++ l'.components, c.Tame (Z d)) (htr : ∀ c ∈ r.components, c.Tame (Z d))
    (s s' t : Sys (Z d)) (hs : l.Means s) (hs' : l'.Means s') (ht : r.Means t)
    (hinit : ∀ l m, s.ts.initialLoc = .ok (some l) → t.ts.initialLoc = .ok (some m) →
      ∀ d, TS.CanDelay l zeroVal d → TS.CanDelay m zeroVal d)
    {d1 d2 : Nat} {o : Option (RefFailure (Z d1))} {o' : Option (RefFailure (Z d2))}
    (ho : ∀ side g, o ≠ some (.precheck side g)) (ho' : ∀ side g, o' ≠ some (.precheck side g))
    (h : X.run load (.refinement a e) = .ok (.refinement d1 o)) (h' : X.run load (.refinement b e) = .ok (.refinement d2 o')) :
    o = none ↔ o' = none := by
  subst hd hq hrr
  obtain ⟨hnum, _, _, hqs⟩ := C60_numbered_two hload hr
  have hq : ∀ i, q0 = some i → 0 < i ∧ i < d0 + 1 := fun i hi => ((numbering hnum).2.2.1 i).1 (.inr hi)
  have okr : r'.Ok (dim (Z d0)) := by
    rw [hZ]; exact ⟨fun c hm => (hc.right c hm).1.clear.ok, fun i hi => hq i (hqs i hi)⟩
  have htA : t.Accepted := by
    obtain ⟨env, i, j, he, ht⟩ := ht
    exact Recipe.compile_accepted he okr ht
  have S := hsame s s' hs hs'
  refine (C64_exact_partial hZ X hX load hload a e l r' _ _ hr hc (Recipe.lined hl) hqr
    (fun c hm => htl c (List.mem_append_left _ hm)) htr s t hs ht hinit d1 o ho h).trans ((S.refines t htA).trans
    (C64_exact_partial hZ X hX load hload b e l' r' _ _ hr' hc' (Recipe.lined hl') hqr
    (fun c hm => htl c (List.mem_append_right _ hm)) htr s' t hs' ht ?_ d2 o' ho' h').symm)
  intro x y hx hy d hd
  obtain ⟨x', hx', hd'⟩ := (S.waits d).2 ⟨x, hx, hd⟩
  exact hinit x' y hx' hy d hd'

/-- **C79** for answers: `refinement: A || B <= C` and `refinement: B || A <= C` are answered alike, if both are answered
and neither fails the determinism or consistency check. -/
theorem C79_refinement_answers_partial (hZ : ∀ d, dim (Z d) = d + 1) (X : QueryEnv Z) (hX : X.Fair)
    (load : String → Res Component) (hload : ∀ n c, load n = .ok c → c.decls.Numbered) (e1 e2 e : SysExpr)
    (he1 : e1.NoQuotient) (he2 : e2.NoQuotient) (l l' r r' : Recipe) (d d0 : Nat) (q q0 : Option Nat)
    (hr : getRecipes load [.composition e1 e2, e] 0 none = .ok ([l, r], d, q))
    (hr' : getRecipes load [.composition e2 e1, e] 0 none = .ok ([l', r'], d0, q0))
    (hc : X.Comparable l r d q) (hc' : X.Comparable l' r d q) (hqr : r.Lined)
    (htl : ∀ c ∈ l.components ++ l'.components, c.Tame (Z d)) (htr : ∀ c ∈ r.components, c.Tame (Z d))
    (s s' t : Sys (Z d)) (hs : l.Means s) (hs' : l'.Means s') (ht : r.Means t)
    (hinit : ∀ l m, s.ts.initialLoc = .ok (some l) → t.ts.initialLoc = .ok (some m) →
      ∀ d, TS.CanDelay l zeroVal d → TS.CanDelay m zeroVal d)
    (d1 d2 : Nat) (o : Option (RefFailure (Z d1))) (o' : Option (RefFailure (Z d2)))
    (ho : ∀ side g, o ≠ some (.precheck side g)) (ho' : ∀ side g, o' ≠ some (.precheck side g))
    (h : X.run load (.refinement (.composition e1 e2) e) = .ok (.refinement d1 o))
    (h' : X.run load (.refinement (.composition e2 e1) e) = .ok (.refinement d2 o')) :
    o = none ↔ o' = none := by
  have hra := hr
  have hrb := hr'
  obtain ⟨⟨l0, k1, q1⟩, ha, hra⟩ := bind_ok hra
  obtain ⟨⟨rs, k2, q2⟩, hb, hra⟩ := bind_ok hra
  obtain ⟨⟨r0, k3, q3⟩, hb, hb'⟩ := bind_ok hb
  cases hb'
  cases hra
  obtain ⟨⟨l0', k1', q1'⟩, ha', hrb⟩ := bind_ok hrb
  obtain ⟨⟨rs', k2', q2'⟩, hb1, hrb⟩ := bind_ok hrb
  obtain ⟨⟨r0', k3', q3'⟩, hb1, hb'⟩ := bind_ok hb1
  cases hb'
  cases hrb
  have hk := recipe_dim_mono hb
  obtain ⟨rfl, n1, _⟩ := recipe_shift hload (e := .composition e1 e2) ⟨he1, he2⟩ ha
  obtain ⟨rfl, n2, _⟩ := recipe_shift hload (e := .composition e2 e1) ⟨he2, he1⟩ ha'
  have hsame : ∀ (s s' : Sys (Z d)), l.Means s → l'.Means s' → k1' = k1 ∧ s.SameTruths s' := fun s s' hs hs' => by
    obtain ⟨a, _, _, b⟩ := C79_composition_expr_partial hload he1 he2 ha ha' (by rw [hZ]; omega)
      (fun c hm => by rw [hZ]; exact (hc.left c hm).1) hs hs'
    exact ⟨a, b⟩
  obtain ⟨rfl, _⟩ := hsame s s' hs hs'
  rw [hb] at hb1
  cases hb1
  exact refinement_answers hZ hX hload hr hr' (fun s s' hs hs' => (hsame s s' hs hs').2) rfl rfl rfl hc hc' n1 n2 hqr htl
    htr s s' t hs hs' ht hinit ho ho' h h'

/-- **C79** for answers: the same for conjunctions: `refinement: A && B <= C` and `refinement: B && A <= C` are answered alike, if both are answered
and neither fails the determinism or consistency check. -/
theorem C79_refinement_answers_conjunction_partial (hZ : ∀ d, dim (Z d) = d + 1) (X : QueryEnv Z) (hX : X.Fair)
    (load : String → Res Component) (hload : ∀ n c, load n = .ok c → c.decls.Numbered) (e1 e2 e : SysExpr)
    (he1 : e1.NoQuotient) (he2 : e2.NoQuotient) (l l' r r' : Recipe) (d d0 : Nat) (q q0 : Option Nat)
    (hr : getRecipes load [.conjunction e1 e2, e] 0 none = .ok ([l, r], d, q))
    (hr' : getRecipes load [.conjunction e2 e1, e] 0 none = .ok ([l', r'], d0, q0))
    (hc : X.Comparable l r d q) (hc' : X.Comparable l' r d q) (hqr : r.Lined)
    (htl : ∀ c ∈ l.components ++ l'.components, c.Tame (Z d)) (htr : ∀ c ∈ r.components, c.Tame (Z d))
    (s s' t : Sys (Z d)) (hs : l.Means s) (hs' : l'.Means s') (ht : r.Means t)
    (hinit : ∀ l m, s.ts.initialLoc = .ok (some l) → t.ts.initialLoc = .ok (some m) →
      ∀ d, TS.CanDelay l zeroVal d → TS.CanDelay m zeroVal d)
    (d1 d2 : Nat) (o : Option (RefFailure (Z d1))) (o' : Option (RefFailure (Z d2)))
    (ho : ∀ side g, o ≠ some (.precheck side g)) (ho' : ∀ side g, o' ≠ some (.precheck side g))
    (h : X.run load (.refinement (.conjunction e1 e2) e) = .ok (.refinement d1 o))
    (h' : X.run load (.refinement (.conjunction e2 e1) e) = .ok (.refinement d2 o')) :
    o = none ↔ o' = none := by
  have hra := hr
  have hrb := hr'
  obtain ⟨⟨l0, k1, q1⟩, ha, hra⟩ := bind_ok hra
  obtain ⟨⟨rs, k2, q2⟩, hb, hra⟩ := bind_ok hra
  obtain ⟨⟨r0, k3, q3⟩, hb, hb'⟩ := bind_ok hb
  cases hb'
  cases hra
  obtain ⟨⟨l0', k1', q1'⟩, ha', hrb⟩ := bind_ok hrb
  obtain ⟨⟨rs', k2', q2'⟩, hb1, hrb⟩ := bind_ok hrb
  obtain ⟨⟨r0', k3', q3'⟩, hb1, hb'⟩ := bind_ok hb1
  cases hb'
  cases hrb
  have hk := recipe_dim_mono hb
  obtain ⟨rfl, n1, _⟩ := recipe_shift hload (e := .conjunction e1 e2) ⟨he1, he2⟩ ha
  obtain ⟨rfl, n2, _⟩ := recipe_shift hload (e := .conjunction e2 e1) ⟨he2, he1⟩ ha'
  have hsame : ∀ (s s' : Sys (Z d)), l.Means s → l'.Means s' → k1' = k1 ∧ s.SameTruths s' := fun s s' hs hs' => by
    obtain ⟨a, _, _, b⟩ := C79_conjunction_expr_partial hload he1 he2 ha ha' (by rw [hZ]; omega)
      (fun c hm => by rw [hZ]; exact (hc.left c hm).1) hs hs'
    exact ⟨a, b⟩
  obtain ⟨rfl, _⟩ := hsame s s' hs hs'
  rw [hb] at hb1
  cases hb1
  exact refinement_answers hZ hX hload hr hr' (fun s s' hs hs' => (hsame s s' hs hs').2) rfl rfl rfl hc hc' n1 n2 hqr htl
    htr s s' t hs hs' ht hinit ho ho' h h'

/-- What two systems that are the same for a user say when a third one is compared with them. -/
theorem refinement_answers_right {X : QueryEnv Z} (hZ : ∀ d, dim (Z d) = d + 1) (hX : X.Fair)
    {load : String → Res Component} (hload : ∀ n c, load n = .ok c → c.decls.Numbered) {a b e : SysExpr} {l l' r r' : Recipe}
    {d d0 : Nat} {q q0 : Option Nat} (hr : getRecipes load [e, a] 0 none = .ok ([r, l], d, q))
    (hr' : getRecipes load [e, b] 0 none = .ok ([r', l'], d0, q0)) (hsame : ∀ (s s' : Sys (Z d)), l.Means s → l'.Means s' →
      s.SameTruths s') (hd : d0 = d) (hq : q0 = q) (hrr : r' = r) (hc : X.Comparable r l d q) (hc' : X.Comparable r l' d q)
    (hl : l.quotientClocks = []) (hl' : l'.quotientClocks = [])
    (hqr : r.Lined) (htl : ∀ c ∈ l.components ++ l'.components, c.Tame (Z d)) (htr : ∀ c ∈ r.components, c.Tame (Z d))
    (s s' t : Sys (Z d)) (hs : l.Means s) (hs' : l'.Means s') (ht : r.Means t)
    (hinit : ∀ l m, t.ts.initialLoc = .ok (some l) → s.ts.initialLoc = .ok (some m) →
      ∀ d, TS.CanDelay l zeroVal d → TS.CanDelay m zeroVal d)
    {d1 d2 : Nat} {o : Option (RefFailure (Z d1))} {o' : Option (RefFailure (Z d2))}
    (ho : ∀ side g, o ≠ some (.precheck side g)) (ho' : ∀ side g, o' ≠ some (.precheck side g))
    (h : X.run load (.refinement e a) = .ok (.refinement d1 o)) (h' : X.run load (.refinement e b) = .ok (.refinement d2 o')) :
    o = none ↔ o' = none := by
  subst hd hq hrr
  obtain ⟨hnum, _, hqs, _⟩ := C60_numbered_two hload hr
  have hq : ∀ i, q0 = some i → 0 < i ∧ i < d0 + 1 := fun i hi => ((numbering hnum).2.2.1 i).1 (.inr hi)
  have okr : r'.Ok (dim (Z d0)) := by
    rw [hZ]; exact ⟨fun c hm => (hc.left c hm).1.clear.ok, fun i hi => hq i (hqs i hi)⟩
  have htA : t.Accepted := by
    obtain ⟨env, i, j, he, ht⟩ := ht
    exact Recipe.compile_accepted he okr ht
  have S := hsame s s' hs hs'
  refine (C64_exact_partial hZ X hX load hload e a r' l _ _ hr hc hqr (Recipe.lined hl) htr
    (fun c hm => htl c (List.mem_append_left _ hm)) t s ht hs hinit d1 o ho h).trans ((S.refined t htA).trans
    (C64_exact_partial hZ X hX load hload e b r' l' _ _ hr' hc' hqr (Recipe.lined hl') htr
    (fun c hm => htl c (List.mem_append_right _ hm)) t s' ht hs' ?_ d2 o' ho' h').symm)
  intro x y hx hy d hd
  obtain ⟨z, hz⟩ := S.starts.2 ⟨y, hy⟩
  obtain ⟨y', hy', hd'⟩ := (S.waits d).1 ⟨z, hz, hinit x z hx hz d hd⟩
  rw [hy] at hy'
  cases hy'
  exact hd'

/-- **C79** for answers: `refinement: C <= A || B` and `refinement: C <= B || A` are answered alike, if both are answered
and neither fails the determinism or consistency check. -/
theorem C79_refinement_answers_right_partial (hZ : ∀ d, dim (Z d) = d + 1) (X : QueryEnv Z) (hX : X.Fair)
    (load : String → Res Component) (hload : ∀ n c, load n = .ok c → c.decls.Numbered) (e1 e2 e : SysExpr)
    (he1 : e1.NoQuotient) (he2 : e2.NoQuotient) (l l' r r' : Recipe) (d d0 : Nat) (q q0 : Option Nat)
    (hr : getRecipes load [e, .composition e1 e2] 0 none = .ok ([r, l], d, q))
    (hr' : getRecipes load [e, .composition e2 e1] 0 none = .ok ([r', l'], d0, q0))
    (hc : X.Comparable r l d q) (hc' : X.Comparable r l' d q) (hqr : r.Lined)
    (htl : ∀ c ∈ l.components ++ l'.components, c.Tame (Z d)) (htr : ∀ c ∈ r.components, c.Tame (Z d))
    (s s' t : Sys (Z d)) (hs : l.Means s) (hs' : l'.Means s') (ht : r.Means t)
    (hinit : ∀ l m, t.ts.initialLoc = .ok (some l) → s.ts.initialLoc = .ok (some m) →
      ∀ d, TS.CanDelay l zeroVal d → TS.CanDelay m zeroVal d)
    (d1 d2 : Nat) (o : Option (RefFailure (Z d1))) (o' : Option (RefFailure (Z d2)))
    (ho : ∀ side g, o ≠ some (.precheck side g)) (ho' : ∀ side g, o' ≠ some (.precheck side g))
    (h : X.run load (.refinement e (.composition e1 e2)) = .ok (.refinement d1 o))
    (h' : X.run load (.refinement e (.composition e2 e1)) = .ok (.refinement d2 o')) :
    o = none ↔ o' = none := by
  have hra := hr
  have hrb := hr'
  obtain ⟨⟨r0, k1, q1⟩, hb, hra⟩ := bind_ok hra
  obtain ⟨⟨rs, k2, q2⟩, ha, hra⟩ := bind_ok hra
  obtain ⟨⟨l0, k3, q3⟩, ha, ha1⟩ := bind_ok ha
  cases ha1
  cases hra
  obtain ⟨⟨r0', k1', q1'⟩, hb1, hrb⟩ := bind_ok hrb
  obtain ⟨⟨rs', k2', q2'⟩, ha', hrb⟩ := bind_ok hrb
  obtain ⟨⟨l0', k3', q3'⟩, ha', ha1⟩ := bind_ok ha'
  cases ha1
  cases hrb
  rw [hb] at hb1
  cases hb1
  obtain ⟨rfl, n1, _⟩ := recipe_shift hload (e := .composition e1 e2) ⟨he1, he2⟩ ha
  obtain ⟨rfl, n2, _⟩ := recipe_shift hload (e := .composition e2 e1) ⟨he2, he1⟩ ha'
  have hsame : ∀ (s s' : Sys (Z d)), l.Means s → l'.Means s' → d0 = d ∧ s.SameTruths s' := fun s s' hs hs' => by
    obtain ⟨a, _, _, b⟩ := C79_composition_expr_partial hload he1 he2 ha ha' (by rw [hZ]; omega)
      (fun c hm => by rw [hZ]; exact (hc.right c hm).1) hs hs'
    exact ⟨a, b⟩
  exact refinement_answers_right hZ hX hload hr hr' (fun s s' hs hs' => (hsame s s' hs hs').2) (hsame s s' hs hs').1 rfl rfl
    hc hc' n1 n2 hqr htl htr s s' t hs hs' ht hinit ho ho' h h'

/-- **C79** for answers: `refinement: C <= A && B` and `refinement: C <= B && A` are answered alike, if both are answered
and neither fails the determinism or consistency check. -/
theorem C79_refinement_answers_right_conjunction_partial (hZ : ∀ d, dim (Z d) = d + 1) (X : QueryEnv Z) (hX : X.Fair)
    (load : String → Res Component) (hload : ∀ n c, load n = .ok c → c.decls.Numbered) (e1 e2 e : SysExpr)
    (he1 : e1.NoQuotient) (he2 : e2.NoQuotient) (l l' r r' : Recipe) (d d0 : Nat) (q q0 : Option Nat)
    (hr : getRecipes load [e, .conjunction e1 e2] 0 none = .ok ([r, l], d, q))
    (hr' : getRecipes load [e, .conjunction e2 e1] 0 none = .ok ([r', l'], d0, q0))
    (hc : X.Comparable r l d q) (hc' : X.Comparable r l' d q) (hqr : r.Lined)
    (htl : ∀ c ∈ l.components ++ l'.components, c.Tame (Z d)) (htr : ∀ c ∈ r.components, c.Tame (Z d))
    (s s' t : Sys (Z d)) (hs : l.Means s) (hs' : l'.Means s') (ht : r.Means t)
    (hinit : ∀ l m, t.ts.initialLoc = .ok (some l) → s.ts.initialLoc = .ok (some m) →
      ∀ d, TS.CanDelay l zeroVal d → TS.CanDelay m zeroVal d)
    (d1 d2 : Nat) (o : Option (RefFailure (Z d1))) (o' : Option (RefFailure (Z d2)))
    (ho : ∀ side g, o ≠ some (.precheck side g)) (ho' : ∀ side g, o' ≠ some (.precheck side g))
    (h : X.run load (.refinement e (.conjunction e1 e2)) = .ok (.refinement d1 o))
    (h' : X.run load (.refinement e (.conjunction e2 e1)) = .ok (.refinement d2 o')) :
    o = none ↔ o' = none := by
  have hra := hr
  have hrb := hr'
  obtain ⟨⟨r0, k1, q1⟩, hb, hra⟩ := bind_ok hra
  obtain ⟨⟨rs, k2, q2⟩, ha, hra⟩ := bind_ok hra
  obtain ⟨⟨l0, k3, q3⟩, ha, ha1⟩ := bind_ok ha
  cases ha1
  cases hra
  obtain ⟨⟨r0', k1', q1'⟩, hb1, hrb⟩ := bind_ok hrb
  obtain ⟨⟨rs', k2', q2'⟩, ha', hrb⟩ := bind_ok hrb
  obtain ⟨⟨l0', k3', q3'⟩, ha', ha1⟩ := bind_ok ha'
  cases ha1
  cases hrb
  rw [hb] at hb1
  cases hb1
  obtain ⟨rfl, n1, _⟩ := recipe_shift hload (e := .conjunction e1 e2) ⟨he1, he2⟩ ha
  obtain ⟨rfl, n2, _⟩ := recipe_shift hload (e := .conjunction e2 e1) ⟨he2, he1⟩ ha'
  have hsame : ∀ (s s' : Sys (Z d)), l.Means s → l'.Means s' → d0 = d ∧ s.SameTruths s' := fun s s' hs hs' => by
    obtain ⟨a, _, _, b⟩ := C79_conjunction_expr_partial hload he1 he2 ha ha' (by rw [hZ]; omega)
      (fun c hm => by rw [hZ]; exact (hc.right c hm).1) hs hs'
    exact ⟨a, b⟩
  exact refinement_answers_right hZ hX hload hr hr' (fun s s' hs hs' => (hsame s s' hs hs').2) (hsame s s' hs hs').1 rfl rfl
    hc hc' n1 n2 hqr htl htr s s' t hs hs' ht hinit ho ho' h h'

end

/-! ## Concrete cases -/

/-- Says `out` between 2 and 5; `i` is the number of its clock -/
def exQuick79 (i : Nat) : Component := ⟨"A", ⟨[], [("x", i)]⟩, [⟨"L0", some (.le (.var "x") (.int 5)), .initial, "NORMAL"⟩],
  [⟨"e", "L0", "L0", .output, some (.ge (.var "x") (.int 2)), some [⟨"x", .int 0⟩], "out"⟩]⟩
/-- Says `tick` once -/
def exTick79 (i : Nat) : Component := ⟨"N", ⟨[], [("z", i)]⟩,
  [⟨"N0", none, .initial, "NORMAL"⟩, ⟨"N1", none, .normal, "NORMAL"⟩],
  [⟨"g", "N0", "N1", .output, some (.ge (.var "z") (.int 1)), none, "tick"⟩]⟩
/-- Says `out` and `tick` at any time -/
def exBoth79 : Component := ⟨"B", ⟨[], []⟩, [⟨"M0", none, .initial, "NORMAL"⟩],
  [⟨"f", "M0", "M0", .output, none, none, "out"⟩, ⟨"h", "M0", "M0", .output, none, none, "tick"⟩]⟩

def loadSwap : String → Res Component := fun n =>
  if n = "A" then .ok (exQuick79 1) else if n = "N" then .ok (exTick79 1) else if n = "B" then .ok exBoth79
  else .error (.err "unknown")

theorem loadSwap_numbered (n : String) (c : Component) (h : loadSwap n = .ok c) : c.decls.Numbered := by
  unfold loadSwap at h
  split at h
  · cases h; exact .refl _
  · split at h
    · cases h; exact .refl _
    · split at h
      · cases h; exact .refl _
      · cases h

def swap1 : SysExpr := .composition (.component "A" none) (.component "N" none)
def swap2 : SysExpr := .composition (.component "N" none) (.component "A" none)
def swapR1 : Recipe := .composition (.component (exQuick79 1) none) (.component (exTick79 2) none)
def swapR2 : Recipe := .composition (.component (exTick79 1) none) (.component (exQuick79 2) none)

theorem swap_recipes :
    getRecipes loadSwap [swap1, .component "B" none] 0 none = .ok ([swapR1, .component exBoth79 none], 2, none) ∧
    getRecipes loadSwap [swap2, .component "B" none] 0 none = .ok ([swapR2, .component exBoth79 none], 2, none) := ⟨rfl, rfl⟩

theorem exQuick79_reducible {i : Nat} (hi : i = 1 ∨ i = 2) : (exQuick79 i).Reducible 3 ∧ (exQuick79 i).UpdatesAgree := by
  have kx : IsClock (exQuick79 i).decls (.var "x") i := .inr ⟨"x", rfl, by rfl⟩
  refine ⟨⟨⟨Component.ok_of_okB ?_, ?_, ?_, ?_, ?_, ?_⟩, ⟨?_, ?_⟩, ?_⟩, ?_⟩
  pick_goal 10
  · intro e he us hus
    rw [List.mem_singleton.1 he] at hus
    cases hus
    intro u hu u' hu' _
    rw [List.mem_singleton.1 hu, List.mem_singleton.1 hu']
  · rcases hi with rfl | rfl <;> decide
  pick_goal 3
  · rcases hi with rfl | rfl <;> decide +kernel
  pick_goal 3
  · rcases hi with rfl | rfl <;> decide +kernel
  pick_goal 3
  · rcases hi with rfl | rfl <;> decide +kernel
  pick_goal 5
  · rcases hi with rfl | rfl <;> decide +kernel
  all_goals (
    intro e he g hg
    rw [List.mem_singleton.1 he] at hg
    cases hg)
  · exact .posConst (.chain (.clock kx)) rfl
  · exact .posConst (.chain (.clock kx)) rfl
  all_goals simp [BoolE.NamesOnly, Arith.NamesOnly]

theorem exTick79_reducible {i : Nat} (hi : i = 1 ∨ i = 2) : (exTick79 i).Reducible 3 ∧ (exTick79 i).UpdatesAgree := by
  have kx : IsClock (exTick79 i).decls (.var "z") i := .inr ⟨"z", rfl, by rfl⟩
  have hinv : ∀ l ∈ (exTick79 i).locations, l.invariant = none := by
    intro l hl
    simp only [exTick79, List.mem_cons, List.not_mem_nil, or_false] at hl
    rcases hl with rfl | rfl <;> rfl
  refine ⟨⟨⟨Component.ok_of_okB ?_, ?_, fun l hl g hg => (by rw [hinv l hl] at hg; cases hg), ?_, ?_, ?_⟩,
    ⟨?_, fun l hl g hg => (by rw [hinv l hl] at hg; cases hg)⟩, ?_⟩, ?_⟩
  pick_goal 8
  · intro e he us hus
    rw [List.mem_singleton.1 he] at hus
    cases hus
  · rcases hi with rfl | rfl <;> decide
  pick_goal 2
  · rcases hi with rfl | rfl <;> decide +kernel
  pick_goal 2
  · rcases hi with rfl | rfl <;> decide +kernel
  pick_goal 2
  · rcases hi with rfl | rfl <;> decide +kernel
  pick_goal 3
  · rcases hi with rfl | rfl <;> decide +kernel
  all_goals (
    intro e he g hg
    rw [List.mem_singleton.1 he] at hg
    cases hg)
  · exact .posConst (.chain (.clock kx)) rfl
  · simp [BoolE.NamesOnly, Arith.NamesOnly]

theorem exBoth79_reducible : exBoth79.Reducible 3 ∧ exBoth79.UpdatesAgree := by
  have hinv : ∀ l ∈ exBoth79.locations, l.invariant = none := by decide +kernel
  have hg : ∀ e ∈ exBoth79.edges, e.guard = none ∧ e.update = none := by decide +kernel
  refine ⟨⟨⟨Component.ok_of_okB (by decide), fun e he g h => ?_, fun l hl g h => ?_, by decide +kernel, by decide +kernel,
    by decide +kernel⟩, ⟨fun e he g h => ?_, fun l hl g h => ?_⟩, by decide +kernel⟩, fun e he us h => ?_⟩
  · rw [(hg e he).1] at h; cases h
  · rw [hinv l hl] at h; cases h
  · rw [(hg e he).1] at h; cases h
  · rw [hinv l hl] at h; cases h
  · rw [(hg e he).2] at h; cases h

theorem swap_comparable : (plainQueries (Z := FedD) false).Comparable swapR1 (.component exBoth79 none) 2 none ∧
    (plainQueries (Z := FedD) false).Comparable swapR2 (.component exBoth79 none) 2 none := by
  constructor <;> refine ⟨by decide, ?_, ?_, .inl rfl, (fun h => by cases h), (fun h => by cases h), fun h => by cases h⟩
  · intro c hc
    rcases List.mem_append.1 hc with hc | hc <;> rw [List.mem_singleton.1 hc]
    · exact exQuick79_reducible (.inl rfl)
    · exact exTick79_reducible (.inr rfl)
  · intro c hc; rw [List.mem_singleton.1 hc]; exact exBoth79_reducible
  · intro c hc
    rcases List.mem_append.1 hc with hc | hc <;> rw [List.mem_singleton.1 hc]
    · exact exTick79_reducible (.inl rfl)
    · exact exQuick79_reducible (.inr rfl)
  · intro c hc; rw [List.mem_singleton.1 hc]; exact exBoth79_reducible

theorem comp79_good {c : Component} {x : CompComp (FedD 2)} (hc : c.okB 3 = true) (h : CompComp.compile id c 0 = .ok x) :
    (Sys.comp x).Good := (Sys.Accepted.comp (Component.ok_of_okB hc) (fun _ => .refl _) h).good

theorem swap_tame : ∀ c ∈ [exQuick79 1, exQuick79 2, exTick79 1, exTick79 2, exBoth79], c.Tame (FedD 2) := by
  have key : ∀ c : Component, c.plainB = true → c.okB 3 = true → ∀ x, CompComp.compile (F := FedD 2) id c 0 = .ok x →
      x.pastB = true → x.openB = true → c.Tame (FedD 2) := fun c h1 h2 x h3 h4 h5 =>
    ⟨Component.plain_of_plainB h1, id, 0, x, fun _ => .refl _, h3, CompComp.past_of_pastB h4,
      CompComp.open_of_openB (comp79_good h2 h3) h5⟩
  intro c hc
  simp only [List.mem_cons, List.not_mem_nil, or_false] at hc
  rcases hc with rfl | rfl | rfl | rfl | rfl <;>
    exact key _ (by decide) (by decide) _ (getOk_eq (by decide +kernel)) (by decide +kernel) (by decide +kernel)

def sysSwap1 : Sys (FedD 2) := (getOk (swapR1.compile (envK (FedD 2)) 0) (by decide +kernel)).1
def sysSwap2 : Sys (FedD 2) := (getOk (swapR2.compile (envK (FedD 2)) 0) (by decide +kernel)).1
def sysBoth79 : Sys (FedD 2) := (getOk ((Recipe.component exBoth79 none).compile (envK (FedD 2)) 0) (by decide +kernel)).1

theorem swap_means : swapR1.Means sysSwap1 ∧ swapR2.Means sysSwap2 ∧ (Recipe.component exBoth79 none).Means sysBoth79 :=
  ⟨⟨envK _, 0, _, envK_perm, getOk_eq (by decide +kernel)⟩, ⟨envK _, 0, _, envK_perm, getOk_eq (by decide +kernel)⟩,
    ⟨envK _, 0, _, envK_perm, getOk_eq (by decide +kernel)⟩⟩

/-- Non-vacuity: `A || N <= B` and `N || A <= B` are both answered with yes; the two systems have different numbers for
the clocks of `A` and `N`, but are the same in all that is true of them. -/
example : sysSwap1.SameTruths sysSwap2 :=
  (C79_composition_expr_partial loadSwap_numbered (e1 := .component "A" none) (e2 := .component "N" none) trivial trivial (k := 0)
    (q := none) (p := none)
    (show getSystemRecipe loadSwap swap1 0 none = .ok (swapR1, 2, none) from rfl)
    (show getSystemRecipe loadSwap swap2 0 none = .ok (swapR2, 2, none) from rfl) (by decide)
    (fun c hm => (swap_comparable.1.left c hm).1) swap_means.1 swap_means.2.1).2.2.2

example : ∃ (o o' : Option (RefFailure (FedD 2))),
    (plainQueries false).run loadSwap (.refinement swap1 (.component "B" none)) = .ok (.refinement 2 o) ∧
    (plainQueries false).run loadSwap (.refinement swap2 (.component "B" none)) = .ok (.refinement 2 o') ∧
    o = none ∧ (o = none ↔ o' = none) := by
  have h1 := refinementAnswer_yes (d := 2)
    (x := (plainQueries false).run loadSwap (.refinement swap1 (.component "B" none))) (by decide +kernel)
  have h2 := refinementAnswer_yes (d := 2)
    (x := (plainQueries false).run loadSwap (.refinement swap2 (.component "B" none))) (by decide +kernel)
  refine ⟨none, none, h1, h2, rfl, ?_⟩
  refine C79_refinement_answers_partial dim_fedD (plainQueries false) (plainQueries_fair _) loadSwap loadSwap_numbered
    (.component "A" none) (.component "N" none) (.component "B" none) trivial trivial _ _ _ _ 2 2 none none swap_recipes.1
    swap_recipes.2 swap_comparable.1 swap_comparable.2 trivial (fun c hm => swap_tame c ?_) (fun c hm => swap_tame c ?_)
    sysSwap1 sysSwap2 sysBoth79 swap_means.1 swap_means.2.1 swap_means.2.2 ?_ 2 2 none none (fun _ _ h => by cases h) (fun _ _ h => by cases h) h1 h2
  · simp only [swapR1, swapR2, Recipe.components, List.cons_append, List.nil_append, List.mem_cons, List.not_mem_nil,
      or_false] at hm ⊢
    tauto
  · rw [List.mem_singleton.1 hm]; simp
  · intro l m _ hm d hd
    have : sysBoth79.ts.initialLoc = .ok (some (.leaf (.simple "M0") none .initial)) := rfl
    rw [this] at hm
    cases hm
    exact ⟨hd.1, fun e _ _ i hi => by cases hi⟩

/-- Says `go` and hears `stop` at any time -/
def exTurn79 : Component := ⟨"E", ⟨[], []⟩, [⟨"M0", none, .initial, "NORMAL"⟩],
  [⟨"f", "M0", "M0", .output, none, none, "go"⟩, ⟨"h", "M0", "M0", .input, none, none, "stop"⟩]⟩

theorem exTurn79_reducible : exTurn79.Reducible 3 := by
  have hinv : ∀ l ∈ exTurn79.locations, l.invariant = none := by decide +kernel
  have hg : ∀ e ∈ exTurn79.edges, e.guard = none ∧ e.update = none := by decide +kernel
  refine ⟨⟨Component.ok_of_okB (by decide), fun e he g h => ?_, fun l hl g h => ?_, by decide +kernel, by decide +kernel,
    by decide +kernel⟩, ⟨fun e he g h => ?_, fun l hl g h => ?_⟩, by decide +kernel⟩
  · rw [(hg e he).1] at h; cases h
  · rw [hinv l hl] at h; cases h
  · rw [(hg e he).1] at h; cases h
  · rw [hinv l hl] at h; cases h

def loadGroup : String → Res Component := fun n => if n = "E" then .ok exTurn79 else loadSwap n

theorem loadGroup_numbered (n : String) (c : Component) (h : loadGroup n = .ok c) : c.decls.Numbered := by
  unfold loadGroup at h
  split at h
  · cases h; exact .refl _
  · exact loadSwap_numbered n c h

/-- `(A || N) || E` and `A || (N || E)` -/
example : ∃ s s' : Sys (FedD 2), (Recipe.composition swapR1 (.component exTurn79 none)).Means s ∧
    (Recipe.composition (.component (exQuick79 1) none) (.composition (.component (exTick79 2) none)
      (.component exTurn79 none))).Means s' ∧ s.hasAction "tick" = true ∧ s.SameTruths s' := by
  have h1 : (Recipe.composition swapR1 (.component exTurn79 none)).Means (F := FedD 2) _ :=
    ⟨envK _, 0, _, envK_perm, getOk_eq (by decide +kernel)⟩
  have h2 : (Recipe.composition (.component (exQuick79 1) none) (.composition (.component (exTick79 2) none)
      (.component exTurn79 none))).Means (F := FedD 2) _ := ⟨envK _, 0, _, envK_perm, getOk_eq (by decide +kernel)⟩
  refine ⟨_, _, h1, h2, by decide +kernel, (C79_composition_grouping_partial loadGroup_numbered
    (e1 := .component "A" none) (e2 := .component "N" none) (e3 := .component "E" none) trivial trivial trivial (k := 0)
    (q := none) rfl rfl ?_ h1 h2).2.2.2⟩
  intro c hc
  simp only [Recipe.components, List.cons_append, List.nil_append, List.mem_cons, List.not_mem_nil, or_false] at hc
  rcases hc with rfl | rfl | rfl
  · exact (exQuick79_reducible (.inl rfl)).1
  · exact (exTick79_reducible (.inr rfl)).1
  · exact exTurn79_reducible

def envOut79 : CompileEnv (FedD 2) :=
  { envK (FedD 2) with checks := fun _ => ⟨fun _ => ["out"], fun _ => [], fun _ => ["out"]⟩ }

/-- `A && B` and `B && A`, `(A && B) && B` and `A && (B && B)` -/
example : (∃ s s' : Sys (FedD 2), s.hasAction "out" = true ∧
      (Recipe.conjunction (.component (exQuick79 1) none) (.component exBoth79 none)).Means s ∧ s.SameTruths s') ∧
    ∃ s s' : Sys (FedD 2), s.hasAction "out" = true ∧ (Recipe.conjunction (.conjunction (.component (exQuick79 1) none)
      (.component exBoth79 none)) (.component exBoth79 none)).Means s ∧ s.SameTruths s' := by
  constructor
  · have h1 : (Recipe.conjunction (.component (exQuick79 1) none) (.component exBoth79 none)).Means (F := FedD 2) _ :=
      ⟨envOut79, 0, _, envK_perm, getOk_eq (by decide +kernel)⟩
    have h2 : (Recipe.conjunction (.component exBoth79 none) (.component (exQuick79 1) none)).Means (F := FedD 2) _ :=
      ⟨envOut79, 0, _, envK_perm, getOk_eq (by decide +kernel)⟩
    refine ⟨_, _, by decide +kernel, h1, (C79_conjunction_expr_partial loadSwap_numbered
      (e1 := .component "A" none) (e2 := .component "B" none) trivial trivial (k := 0) (q := none) (p := none) rfl rfl
      (by decide) ?_ h1 h2).2.2.2⟩
    intro c hc
    simp only [Recipe.components, List.cons_append, List.nil_append, List.mem_cons, List.not_mem_nil, or_false] at hc
    rcases hc with rfl | rfl
    · exact (exQuick79_reducible (.inl rfl)).1
    · exact exBoth79_reducible.1
  · have h1 : (Recipe.conjunction (.conjunction (.component (exQuick79 1) none) (.component exBoth79 none))
        (.component exBoth79 none)).Means (F := FedD 2) _ := ⟨envOut79, 0, _, envK_perm, getOk_eq (by decide +kernel)⟩
    have h2 : (Recipe.conjunction (.component (exQuick79 1) none) (.conjunction (.component exBoth79 none)
        (.component exBoth79 none))).Means (F := FedD 2) _ := ⟨envOut79, 0, _, envK_perm, getOk_eq (by decide +kernel)⟩
    refine ⟨_, _, by decide +kernel, h1, (C79_conjunction_grouping_partial loadSwap_numbered
      (e1 := .component "A" none) (e2 := .component "B" none) (e3 := .component "B" none) trivial trivial trivial (k := 0)
      (q := none) rfl rfl ?_ h1 h2).2.2.2⟩
    intro c hc
    simp only [Recipe.components, List.cons_append, List.nil_append, List.mem_cons, List.not_mem_nil, or_false] at hc
    rcases hc with rfl | rfl | rfl
    · exact (exQuick79_reducible (.inl rfl)).1
    · exact exBoth79_reducible.1
    · exact exBoth79_reducible.1

/-- Says one thing at any time; `i` is the number of its clock -/
def exFree79 (n a : String) (i : Nat) : Component := ⟨n, ⟨[], [("x", i)]⟩, [⟨"L0", none, .initial, "NORMAL"⟩],
  [⟨"e", "L0", "L0", .output, none, some [⟨"x", .int 0⟩], a⟩]⟩

def loadFree79 : String → Res Component := fun n =>
  if n = "P" then .ok (exFree79 "P" "out" 1) else if n = "Q" then .ok (exFree79 "Q" "tick" 1)
  else if n = "B" then .ok exBoth79 else .error (.err "unknown")

theorem loadFree79_numbered (n : String) (c : Component) (h : loadFree79 n = .ok c) : c.decls.Numbered := by
  unfold loadFree79 at h
  split at h
  · cases h; exact .refl _
  · split at h
    · cases h; exact .refl _
    · split at h
      · cases h; exact .refl _
      · cases h

theorem exFree79_reducible {n a : String} {i : Nat} (hok : (exFree79 n a i).okB 3 = true) :
    (exFree79 n a i).Reducible 3 ∧ (exFree79 n a i).UpdatesAgree := by
  have hinv : ∀ l ∈ (exFree79 n a i).locations, l.invariant = none := fun l hl => by rw [List.mem_singleton.1 hl]
  have hg : ∀ e ∈ (exFree79 n a i).edges, e.guard = none := fun e he => by rw [List.mem_singleton.1 he]
  refine ⟨⟨⟨Component.ok_of_okB hok, fun e he g h => ?_, fun l hl g h => ?_, List.nodup_singleton _, ?_,
    List.nodup_singleton _⟩, ⟨fun e he g h => ?_, fun l hl g h => ?_⟩, List.nodup_singleton _⟩, fun e he us h => ?_⟩
  · rw [hg e he] at h; cases h
  · rw [hinv l hl] at h; cases h
  · intro l hl l' hl' _ _
    rw [List.mem_singleton.1 hl, List.mem_singleton.1 hl']
  · rw [hg e he] at h; cases h
  · rw [hinv l hl] at h; cases h
  · rw [List.mem_singleton.1 he] at h
    cases h
    intro u hu u' hu' _
    rw [List.mem_singleton.1 hu, List.mem_singleton.1 hu']

def freeR1 : Recipe := .composition (.component (exFree79 "P" "out" 1) none) (.component (exFree79 "Q" "tick" 2) none)
def freeR2 : Recipe := .composition (.component (exFree79 "Q" "tick" 1) none) (.component (exFree79 "P" "out" 2) none)

theorem free_comparable : (plainQueries (Z := FedD) false).Comparable (.component exBoth79 none) freeR1 2 none ∧
    (plainQueries (Z := FedD) false).Comparable (.component exBoth79 none) freeR2 2 none := by
  constructor <;> refine ⟨by decide, ?_, ?_, .inl rfl, (fun h => by cases h), (fun h => by cases h), fun h => by cases h⟩
  · intro c hc; rw [List.mem_singleton.1 hc]; exact exBoth79_reducible
  · intro c hc
    rcases List.mem_append.1 hc with hc | hc <;> rw [List.mem_singleton.1 hc]
    · exact exFree79_reducible (by decide)
    · exact exFree79_reducible (by decide)
  · intro c hc; rw [List.mem_singleton.1 hc]; exact exBoth79_reducible
  · intro c hc
    rcases List.mem_append.1 hc with hc | hc <;> rw [List.mem_singleton.1 hc]
    · exact exFree79_reducible (by decide)
    · exact exFree79_reducible (by decide)

theorem free_tame : ∀ c ∈ freeR1.components ++ freeR2.components, c.Tame (FedD 2) := by
  have key : ∀ c : Component, c.plainB = true → c.okB 3 = true → ∀ x, CompComp.compile (F := FedD 2) id c 0 = .ok x →
      x.pastB = true → x.openB = true → c.Tame (FedD 2) := fun c h1 h2 x h3 h4 h5 =>
    ⟨Component.plain_of_plainB h1, id, 0, x, fun _ => .refl _, h3, CompComp.past_of_pastB h4,
      CompComp.open_of_openB (comp79_good h2 h3) h5⟩
  intro c hc
  simp only [freeR1, freeR2, Recipe.components, List.cons_append, List.nil_append, List.mem_cons, List.not_mem_nil,
    or_false] at hc
  rcases hc with rfl | rfl | rfl | rfl <;>
    exact key _ (by decide) (by decide) _ (getOk_eq (by decide +kernel)) (by decide +kernel) (by decide +kernel)

def sysFree1 : Sys (FedD 2) := (getOk (freeR1.compile (envK (FedD 2)) 0) (by decide +kernel)).1
def sysFree2 : Sys (FedD 2) := (getOk (freeR2.compile (envK (FedD 2)) 0) (by decide +kernel)).1

/-- Non-vacuity: `B <= P || Q` and `B <= Q || P` are both answered with yes. -/
example : ∃ (o o' : Option (RefFailure (FedD 2))),
    (plainQueries false).run loadFree79 (.refinement (.component "B" none)
      (.composition (.component "P" none) (.component "Q" none))) = .ok (.refinement 2 o) ∧
    (plainQueries false).run loadFree79 (.refinement (.component "B" none)
      (.composition (.component "Q" none) (.component "P" none))) = .ok (.refinement 2 o') ∧
    o = none ∧ (o = none ↔ o' = none) := by
  have h1 := refinementAnswer_yes (d := 2) (x := (plainQueries false).run loadFree79 (.refinement (.component "B" none)
      (.composition (.component "P" none) (.component "Q" none)))) (by decide +kernel)
  have h2 := refinementAnswer_yes (d := 2) (x := (plainQueries false).run loadFree79 (.refinement (.component "B" none)
      (.composition (.component "Q" none) (.component "P" none)))) (by decide +kernel)
  refine ⟨none, none, h1, h2, rfl, ?_⟩
  refine C79_refinement_answers_right_partial dim_fedD (plainQueries false) (plainQueries_fair _) loadFree79
    loadFree79_numbered (.component "P" none) (.component "Q" none) (.component "B" none) trivial trivial freeR1 freeR2
    (.component exBoth79 none) (.component exBoth79 none) 2 2 none none rfl rfl free_comparable.1 free_comparable.2 trivial
    free_tame (fun c hm => swap_tame c ?_) sysFree1 sysFree2 sysBoth79
    ⟨envK _, 0, _, envK_perm, getOk_eq (by decide +kernel)⟩ ⟨envK _, 0, _, envK_perm, getOk_eq (by decide +kernel)⟩
    swap_means.2.2 ?_ 2 2 none none (fun _ _ h => by cases h) (fun _ _ h => by cases h) h1 h2
  · rw [List.mem_singleton.1 hm]; simp
  · intro l m _ hm d hd
    have hn : (match sysFree1.initialLoc with | .ok (some m) => m.inv.isNone | _ => false) = true := by decide +kernel
    rw [show sysFree1.initialLoc = .ok (some m) from hm] at hn
    have hn : m.inv.isNone = true := hn
    exact ⟨hd.1, fun e _ _ i hi => by rw [hi] at hn; cases hn⟩

end Reveaal
