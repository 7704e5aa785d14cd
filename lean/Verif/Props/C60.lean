import Verif.Lemmas.ReduceMap
import Verif.Props.C23
import Verif.Props.C24
import Mathlib.Data.List.Flatten

/-!
# C60: clock reduction does not change the behaviour of a system
-/

namespace Reveaal
open ZoneLib ClockGraph
variable {F G : Type} [ZoneLib F] [ZoneLib G]

/-! ## The instructions -/

/-- The instructions of the analysis, filtered: removals and then replacements. -/
structure Plan (g : ClockGraph) (n : Nat) (ins : List ClockInstr) (rem : List Nat) (reps : List (Nat × List Nat)) :
    Prop where
  form : ins = rem.map .remove ++ reps.map fun p => .replace p.1 p.2
  nodup : (rem ++ reps.flatMap (·.2)).Nodup
  range : ∀ c ∈ rem ++ reps.flatMap (·.2), 0 < c ∧ c < n
  leaders : ∀ p ∈ reps, p.1 ∉ rem ++ reps.flatMap (·.2)
  same : ∀ p ∈ reps, ∀ x ∈ p.2, ∀ e ∈ g.edges, (assigned e.updates).lookup x = (assigned e.updates).lookup p.1
  real : ∀ p ∈ reps, 0 < p.1 ∧ p.1 < n

theorem gone_form (rem : List Nat) (reps : List (Nat × List Nat)) :
    (rem.map ClockInstr.remove ++ reps.map fun p => ClockInstr.replace p.1 p.2).flatMap ClockInstr.gone =
      rem ++ reps.flatMap (·.2) := by
  rw [List.flatMap_append, List.flatMap_map, List.flatMap_map]
  congr 1
  exact List.flatMap_singleton' rem

theorem count_form (rem : List Nat) (reps : List (Nat × List Nat)) :
    ((rem.map ClockInstr.remove ++ reps.map fun p => ClockInstr.replace p.1 p.2).map ClockInstr.removedCount).sum =
      (rem ++ reps.flatMap (·.2)).length := by
  rw [List.map_append, List.sum_append, List.length_append, List.map_map, List.map_map, List.length_flatMap]
  congr 1
  show (List.map (fun _ => 1) rem).sum = _
  simp

theorem plan_of_redundant {s : Sys F} (hs : s.Accepted) (hdim : dim F ≤ 4294967295) {ord : HashOrder}
    {acts : List String} {fuel : Nat} {ins : List ClockInstr} (h : findRedundantClocks ord s.ts acts fuel = .ok ins) :
    ∃ g rem reps, analysisGraph s.ts acts fuel = .ok g ∧ Plan g (dim F) ins rem reps := by
  obtain ⟨h1, h2, h3, h4⟩ := C24_instructions s hs hdim ord acts fuel ins h
  obtain ⟨g, hg, h⟩ := bind_ok h
  obtain ⟨hgood, hsame, hlt⟩ := redundant_groups hs hdim (ord := ord) hg
  cases h
  have hform : g.redundancies ord (dim F) =
      (ord.order 1 ((List.range' 1 (dim F - 1)).filter fun c => !((g.usedClocks ord).contains c))).map .remove ++
      ((g.equivalentGroups ord (g.usedClocks ord)).map fun cs => (minimum cs, cs.erase (minimum cs))).map
        fun p => .replace p.1 p.2 := by
    unfold redundancies
    rw [List.map_map]
    rfl
  refine ⟨g, _, _, hg, ⟨hform, ?_, ?_, ?_, ?_, ?_⟩⟩
  · rw [← gone_form, ← hform]; exact h1
  · rw [← gone_form, ← hform]; exact h2
  · intro p hp
    rw [← gone_form, ← hform]
    refine (h3 p.1 p.2 ?_).1
    rw [hform]
    exact List.mem_append_right _ (List.mem_map.2 ⟨p, hp, rfl⟩)
  · intro p hp x hx e he
    obtain ⟨cs, hcs, rfl⟩ := List.mem_map.1 hp
    have hne : cs ≠ [] := by
      rintro rfl
      cases hx
    exact hsame e he cs hcs x (List.mem_of_mem_erase hx) _ (minimum_mem hne).1
  · intro p hp
    obtain ⟨cs, hcs, rfl⟩ := List.mem_map.1 hp
    have hne : cs ≠ [] := by
      have := hgood.big cs hcs
      rintro rfl
      simp at this
    exact hlt _ (hgood.used _ (List.mem_flatten.2 ⟨cs, hcs, (minimum_mem hne).1⟩))

theorem Plan.filter {g : ClockGraph} {n : Nat} {ins : List ClockInstr} {rem : List Nat} {reps : List (Nat × List Nat)}
    (h : Plan g n ins rem reps) (p : ClockInstr → Bool) :
    ∃ rem' reps', rem'.Sublist rem ∧ reps'.Sublist reps ∧ Plan g n (ins.filter p) rem' reps' := by
  have hs : ((rem.filter fun i => p (.remove i)) ++ (reps.filter fun x => p (.replace x.1 x.2)).flatMap (·.2)).Sublist
      (rem ++ reps.flatMap (·.2)) := by
    refine List.filter_sublist.append ?_
    exact List.filter_sublist.flatMap _
  refine ⟨_, _, List.filter_sublist, List.filter_sublist, ⟨?_, h.nodup.sublist hs, fun c hc => h.range c (hs.subset hc),
    fun x hx hm => h.leaders x (List.mem_of_mem_filter hx) (hs.subset hm),
    fun x hx => h.same x (List.mem_of_mem_filter hx), fun x hx => h.real x (List.mem_of_mem_filter hx)⟩⟩
  rw [h.form, List.filter_append, List.filter_map, List.filter_map]
  rfl

theorem Plan.good {g : ClockGraph} {n : Nat} {ins : List ClockInstr} {rem : List Nat} {reps : List (Nat × List Nat)}
    (h : Plan g n ins rem reps) : GoodReps reps :=
  ⟨(List.nodup_append'.1 h.nodup).2.1, fun p hp hm => h.leaders p hp (List.mem_append_right _ hm)⟩

/-! ## Counting -/

theorem length_without {L gone : List Nat} (hL : L.Nodup) (hg : gone.Nodup) (hs : ∀ i ∈ gone, i ∈ L) :
    (L.filter fun i => !(gone.contains i)).length + gone.length = L.length := by
  have h1 : (L.filter fun i => gone.contains i).Perm gone := by
    refine (List.perm_ext_iff_of_nodup (hL.filter _) hg).2 fun i => ?_
    rw [List.mem_filter]
    simp only [List.contains_eq_mem, decide_eq_true_eq]
    exact ⟨fun h => h.2, fun h => ⟨hs i h, h⟩⟩
  have h2 := (List.filter_append_perm (fun i => gone.contains i) L).length_eq
  rw [List.length_append, h1.length_eq] at h2
  omega

theorem image_length {A : List Nat} {f : Nat → Nat} {n : Nat} (h : ∀ k, 1 ≤ k → k ≤ n → ∃ x ∈ A, f x = k) :
    n ≤ A.length := by
  have := (List.subperm_of_subset (List.nodup_range' (s := 1) (n := n)) (l₂ := A.map f) fun k hk => by
    rw [List.mem_range'_1] at hk
    obtain ⟨x, hx, rfl⟩ := h k (by omega) (by omega)
    exact List.mem_map_of_mem hx).length_le
  rwa [List.length_range', List.length_map] at this


/-! ## One recipe -/

/-- The assumptions on a recipe and the clocks that are reported as redundant. -/
structure ReducedBy (F : Type) [ZoneLib F] (r : Recipe) (q : Option Nat) (ins : List ClockInstr) : Prop where
  /-- clocks have different names in a component and are mentioned by name, guards and invariants are applied as they
  are written -/
  comps : ∀ c ∈ r.components, c.Reducible (dim F)
  /-- no edge assigns two values to one clock, if there are quotients -/
  agree : q ≠ none → ∀ c ∈ r.components, c.UpdatesAgree
  /-- all quotients share one clock -/
  quots : ∀ i ∈ r.quotientClocks, q = some i
  /-- guards and invariants that mention a clock reported as unused can never hold (without this the property is
  false: C25) -/
  harmless : ∀ i, .remove i ∈ ins → ∀ c ∈ r.components, c.HarmlessFor [i]

/-- The assumptions on a recipe and the analysis of the system it is compiled to. -/
structure Side (F : Type) [ZoneLib F] (r : Recipe) (q : Option Nat) (s : Sys F) (ins : List ClockInstr) : Prop extends
    ReducedBy F r q ins where
  /-- location names contain no operators -/
  clean : s.CleanNames
  /-- assigned values are `i32` -/
  small : s.I32Updates

/-- The clock map of a reduction. -/
theorem side_reduces {r : Recipe} {q : Option Nat} {ins : List ClockInstr} (hside : ReducedBy F r q ins)
    (hok : r.Ok (dim F)) (hnd : r.clockIndices.Nodup) (hfresh : ∀ i, q = some i → i ∉ r.clockIndices)
    {rem : List Nat} {reps : List (Nat × List Nat)} (hrem : ∀ i ∈ rem, .remove i ∈ ins ∧ q ≠ some i)
    {f h : Nat → Nat} {n m q' : Nat} {S : List Nat} (hinj : ∀ x ∈ S, ∀ y ∈ S, f x = f y → x = y)
    (hrange : ∀ x ∈ S, 1 ≤ f x ∧ f x ≤ n) (hS : ∀ i ∈ r.clockIndices, i ∉ rem → standIn reps i ∈ S) (hn : n < m)
    (hq' : ∀ i ∈ r.quotientClocks, h i = q' ∧ n < q' ∧ q' < m) (hcase : q = none ∨ reps = []) :
    r.Reduces (dim F) m rem (f ∘ standIn reps) h q' ∧
    (∀ x k, r.clockMap rem (f ∘ standIn reps) q' x = some k →
      (x ∉ rem ∧ x ∈ r.clockIndices ∧ f (standIn reps x) = k) ∨ (x ∈ r.quotientClocks ∧ k = q')) ∧
    (reps = [] → (r.clockMap rem (f ∘ standIn reps) q').Inj) ∧
    (r.quotientClocks ≠ [] → (r.clockMap rem (f ∘ standIn reps) q').Inj ∧ ∃ q, r.SteadyFor q) := by
  have hred : r.Reduces (dim F) m rem (f ∘ standIn reps) h q' := by
    refine ⟨hok, fun c hc => ⟨hside.comps c hc, fun x i hi hm => ?_⟩, fun i hi hm => ?_, fun i hi => ?_⟩
    · exact hside.harmless i (hrem i hi).1 c hc x i (List.mem_singleton.2 rfl) hm
    · have := hrange _ (hS i hi hm)
      show 0 < f (standIn reps i) ∧ f (standIn reps i) < _
      omega
    · have hqi := hside.quots i hi
      obtain ⟨h1, h2, h3⟩ := hq' i hi
      exact ⟨fun hm => (hrem i hm).2 hqi, hfresh i hqi, h1, by omega, h3⟩
  have hmap : ∀ x k, r.clockMap rem (f ∘ standIn reps) q' x = some k →
      (x ∉ rem ∧ x ∈ r.clockIndices ∧ f (standIn reps x) = k) ∨ (x ∈ r.quotientClocks ∧ k = q') := by
    intro x k hk
    unfold Recipe.clockMap at hk
    split at hk
    · cases hk
    · rename_i hx
      split at hk
      · rename_i hi
        exact .inl ⟨hx, hi, by simpa using hk⟩
      · split at hk
        · rename_i hq
          cases hk
          exact .inr ⟨hq, rfl⟩
        · cases hk
  have hinjm : reps = [] → (r.clockMap rem (f ∘ standIn reps) q').Inj := by
    rintro rfl x y k hx hy
    rcases hmap x k hx with ⟨a, b, c⟩ | ⟨a, b⟩ <;> rcases hmap y k hy with ⟨a', b', c'⟩ | ⟨a', b'⟩
    · exact hinj _ (hS x b a) _ (hS y b' a') (c.trans c'.symm)
    · have := hrange _ (hS x b a)
      have := (hq' y a').2.1
      omega
    · have := hrange _ (hS y b' a')
      have := (hq' x a).2.1
      omega
    · have h1 := hside.quots x a
      rw [hside.quots y a'] at h1
      exact (Option.some.inj h1).symm
  refine ⟨hred, hmap, hinjm, fun hne => ?_⟩
  obtain ⟨k, hk⟩ := List.exists_mem_of_ne_nil _ hne
  have hqk := hside.quots k hk
  have hre : reps = [] := hcase.resolve_left (by rw [hqk]; exact Option.some_ne_none k)
  refine ⟨hinjm hre, k, hside.agree (by rw [hqk]; exact Option.some_ne_none k), hnd, hfresh k hqk, fun x hx => ?_⟩
  have := hside.quots x hx
  rw [hqk] at this
  exact (Option.some.inj this).symm

/-- Clocks that become one clock are always assigned the same values. -/
theorem side_coherent {r : Recipe} {q : Option Nat} {s : Sys F} {ins : List ClockInstr} (hside : Side F r q s ins)
    (hok : r.Ok (dim F)) (hnd : r.clockIndices.Nodup) (hfresh : ∀ i, q = some i → i ∉ r.clockIndices)
    {env : CompileEnv F} (he : env.Perm) {i j : Nat} (hs : r.compile env i = .ok (s, j)) {acts : List String} {fuel : Nat}
    {g : ClockGraph} (hacts : s.ts.IsActions acts) (hg : analysisGraph s.ts acts fuel = .ok g)
    {rem : List Nat} {reps : List (Nat × List Nat)} (hrep : GoodReps reps) (hrem : ∀ i ∈ rem, .remove i ∈ ins ∧ q ≠ some i)
    (hsame : ∀ p ∈ reps, ∀ x ∈ p.2, ∀ e ∈ g.edges, (assigned e.updates).lookup x = (assigned e.updates).lookup p.1)
    {f h : Nat → Nat} {n m q' : Nat} {S : List Nat} (hinj : ∀ x ∈ S, ∀ y ∈ S, f x = f y → x = y)
    (hrange : ∀ x ∈ S, 1 ≤ f x ∧ f x ≤ n) (hS : ∀ i ∈ r.clockIndices, i ∉ rem → standIn reps i ∈ S) (hn : n < m)
    (hq' : ∀ i ∈ r.quotientClocks, h i = q' ∧ n < q' ∧ q' < m) (hcase : q = none ∨ reps = []) (l : LocTree F) (a : String)
    (ts : List (Transition F)) (t : Transition F) (hl : s.Linked l) (hact : s.hasAction a = true)
    (hnx : s.next l a = .ok ts) (ht : t ∈ ts) : (r.clockMap rem (f ∘ standIn reps) q').Coherent t.updates := by
  obtain ⟨hred, hmap, hinjm, hcalm⟩ := side_reduces hside.toReducedBy hok hnd hfresh hrem hinj hrange hS hn hq' hcase
  have hacc := Recipe.compile_accepted he hok hs
  rcases hcase with hq | hre
  · have hcov := (graph_covers hacc hside.clean hacts hg hl).edge a ts t hact hnx ht
    have hval : ∀ u ∈ t.updates, 0 ≤ u.value ∧ u.value < 2147483648 := fun u hu =>
      ⟨((hacc.good.next_ok (hl.isLoc hacc) hact hnx t ht).2.upd u hu).2.2, Sys.next_updates s hside.small hnx t ht u hu⟩
    have hup : ∀ x, (assigned t.updates).lookup x = (assigned t.updates).lookup (standIn reps x) := by
      intro x
      rcases standIn_cases hrep x with ⟨_, h2⟩ | ⟨p, hp, hxp, h2⟩
      · rw [h2]
      · rw [h2]
        exact hsame p hp x hxp _ hcov
    have hnq : ∀ x, x ∉ r.quotientClocks := fun x hx => by
      have := hside.quots x hx
      rw [hq] at this
      cases this
    intro x y k hx hy
    rcases hmap x k hx with ⟨a1, b1, c1⟩ | ⟨a1, _⟩
    · rcases hmap y k hy with ⟨a2, b2, c2⟩ | ⟨a2, _⟩
      · have := hinj _ (hS x b1 a1) _ (hS y b2 a2) (c1.trans c2.symm)
        refine lastValue_eq ?_ hval
        rw [hup x, this, ← hup y]
      · exact absurd a2 (hnq y)
    · exact absurd a1 (hnq x)
  · exact (hinjm hre).coherent _

theorem side_indistinguishable {r : Recipe} {q : Option Nat} {s : Sys F} {ins : List ClockInstr} (hside : Side F r q s ins)
    (hok : r.Ok (dim F)) (hnd : r.clockIndices.Nodup) (hfresh : ∀ i, q = some i → i ∉ r.clockIndices)
    {env : CompileEnv F} (he : env.Perm) {i j : Nat} (hs : r.compile env i = .ok (s, j)) {acts : List String} {fuel : Nat}
    {g : ClockGraph} (hacts : s.ts.IsActions acts) (hg : analysisGraph s.ts acts fuel = .ok g)
    {rem : List Nat} {reps : List (Nat × List Nat)} (hrep : GoodReps reps) (hrem : ∀ i ∈ rem, .remove i ∈ ins ∧ q ≠ some i)
    (hsame : ∀ p ∈ reps, ∀ x ∈ p.2, ∀ e ∈ g.edges, (assigned e.updates).lookup x = (assigned e.updates).lookup p.1)
    {f h : Nat → Nat} {n q' : Nat} {S : List Nat} (hinj : ∀ x ∈ S, ∀ y ∈ S, f x = f y → x = y)
    (hrange : ∀ x ∈ S, 1 ≤ f x ∧ f x ≤ n) (hS : ∀ i ∈ r.clockIndices, i ∉ rem → standIn reps i ∈ S) (hn : n < dim G)
    (hq' : ∀ i ∈ r.quotientClocks, h i = q' ∧ n < q' ∧ q' < dim G) (hcase : q = none ∨ reps = [])
    {env' : CompileEnv G} (he' : env'.Perm) {i' j' : Nat} {s' : Sys G}
    (hs' : (r.reshape (Component.reduced rem (f ∘ standIn reps)) h).compile env' i' = .ok (s', j')) :
    s.ts.Indistinguishable s'.ts (r.SameValues (r.reshape (Component.reduced rem (f ∘ standIn reps)) h)) ∧ s.Good ∧
      s'.Good := by
  obtain ⟨hred, hmap, hinjm, hcalm⟩ := side_reduces hside.toReducedBy hok hnd hfresh hrem hinj hrange hS hn hq' hcase
  have hacc := Recipe.compile_accepted he hok hs
  refine ⟨hred.indistinguishable he he' hs hs' hcalm
    (side_coherent hside hok hnd hfresh he hs hacts hg hrep hrem hsame hinj hrange hS hn hq' hcase), hacc.good,
    (Recipe.compile_accepted he' hred.reduced_ok hs').good⟩

/-- The numbering of the clocks of a query: see C23. -/
theorem numbering {L : List Nat} {q : Option Nat} {d : Nat} (h : (L ++ q.toList).Perm (List.range' 1 d)) :
    L.Nodup ∧ (∀ i, q = some i → i ∉ L) ∧ (∀ i, (i ∈ L ∨ q = some i) ↔ 0 < i ∧ i < d + 1) ∧
      d = L.length + q.toList.length := by
  have hn := h.nodup_iff.2 List.nodup_range'
  rw [List.nodup_append'] at hn
  refine ⟨hn.1, fun i hi hm => hn.2.2 hm (by rw [hi]; simp), fun i => ?_, ?_⟩
  · have := h.mem_iff (a := i)
    rw [List.mem_append, List.mem_range'_1, Option.mem_toList] at this
    rw [this]
    omega
  · have := h.length_eq
    rw [List.length_append, List.length_range'] at this
    exact this.symm

/-- The recipe is fit for compilation. -/
theorem side_ok {r : Recipe} {q : Option Nat} {ins : List ClockInstr} (hside : ReducedBy F r q ins)
    (hq : ∀ i, q = some i → 0 < i ∧ i < dim F) : r.Ok (dim F) :=
  ⟨fun c hc => (hside.comps c hc).clear.ok, fun i hi => hq i (hside.quots i hi)⟩

theorem Recipe.mapComponents_changeQuotient (k : Nat) (f : Component → Component) (r : Recipe) :
    (r.mapComponents f).changeQuotient k = r.reshape f fun _ => k := by
  rw [Recipe.mapComponents_eq, Recipe.changeQuotient_eq, Recipe.reshape_reshape]
  rfl

/-- What the reduction of one recipe gives: `rem` are the clocks that are removed, `reps` those that are replaced and `f` is
the new numbering of the others. -/
theorem clockReduceSingle_form (env : CompileEnv F) (he : env.Perm) (ord : HashOrder) (acts : Sys F → List String) (r : Recipe)
    (d : Nat) (q : Option Nat) (hnum : (r.clockIndices ++ q.toList).Perm (List.range' 1 d)) (hdim : dim F = d + 1)
    (hmax : dim F ≤ 4294967295) (s : Sys F) (j : Nat) (hs : r.compile env 0 = .ok (s, j))
    (ins : List ClockInstr) (hins : findRedundantClocks ord s.ts (acts s) env.fuel = .ok ins) (hside : ReducedBy F r q ins)
    (hmerge : q = none ∨ ∀ c cs, .replace c cs ∈ ins → q = some c) :
    ∃ (rem : List Nat) (reps : List (Nat × List Nat)) (f : Nat → Nat) (d' : Nat) (g : ClockGraph) (n : Nat) (S : List Nat),
      clockReduceSingle env ord acts r d q =
        .ok (r.reshape (Component.reduced rem (f ∘ standIn reps)) (if q.isSome then fun _ => d' else id), d') ∧
      ((rem ++ reps.flatMap (·.2)).Nodup ∧ (∀ i ∈ rem ++ reps.flatMap (·.2), i ∈ r.clockIndices) ∧
        d' + (rem ++ reps.flatMap (·.2)).length = d) ∧
      analysisGraph s.ts (acts s) env.fuel = .ok g ∧ GoodReps reps ∧ (∀ i ∈ rem, .remove i ∈ ins ∧ q ≠ some i) ∧
      (∀ p ∈ reps, ∀ x ∈ p.2, ∀ e ∈ g.edges, (assigned e.updates).lookup x = (assigned e.updates).lookup p.1) ∧
      (q = none ∨ reps = []) ∧ ((∀ c cs, .replace c cs ∈ ins → q = some c) → reps = []) ∧
      (∀ x ∈ S, ∀ y ∈ S, f x = f y → x = y) ∧ (∀ x ∈ S, 1 ≤ f x ∧ f x ≤ n) ∧
      (∀ i ∈ r.clockIndices, i ∉ rem → standIn reps i ∈ S) ∧ n < d' + 1 ∧
      ∀ i ∈ r.quotientClocks, (if q.isSome then fun _ => d' else id) i = d' ∧ n < d' ∧ d' < d' + 1 := by
  obtain ⟨hnd, hfresh, hmem, hlen⟩ := numbering hnum
  have hok : r.Ok (dim F) := side_ok hside fun i hi => by rw [hdim]; exact (hmem i).1 (.inr hi)
  have hacc := Recipe.compile_accepted he hok hs
  obtain ⟨g, rem0, reps0, hg, hplan0⟩ := plan_of_redundant hacc hmax hins
  obtain ⟨rem, reps, -, -, hplan⟩ := hplan0.filter fun i => decide (i.clockIndex ≠ q.getD 0)
  have hin : ∀ x, x ∈ rem.map ClockInstr.remove ++ reps.map (fun p => ClockInstr.replace p.1 p.2) →
      x ∈ ins ∧ x.clockIndex ≠ q.getD 0 := fun x hx => by
    rw [← hplan.form] at hx
    obtain ⟨h1, h2⟩ := List.mem_filter.1 hx
    exact ⟨h1, of_decide_eq_true h2⟩
  have hrem : ∀ i ∈ rem, .remove i ∈ ins ∧ q ≠ some i := fun i hi => by
    obtain ⟨h1, h2⟩ := hin _ (List.mem_append_left _ (List.mem_map_of_mem hi))
    refine ⟨h1, ?_⟩
    rintro rfl
    exact h2 rfl
  have hkeep : (∀ c cs, .replace c cs ∈ ins → q = some c) → reps = [] := by
    refine fun h => List.eq_nil_iff_forall_not_mem.2 fun p hp => ?_
    obtain ⟨h1, h2⟩ := hin _ (List.mem_append_right _ (List.mem_map_of_mem hp))
    have := h _ _ h1
    subst this
    exact h2 rfl
  have hcase : q = none ∨ reps = [] := hmerge.imp_right hkeep
  have hgone : ∀ i ∈ rem ++ reps.flatMap (·.2), i ∈ r.clockIndices := by
    intro i hi
    have h1 := hplan.range i hi
    rw [hdim] at h1
    refine ((hmem i).2 h1).resolve_right fun hqi => ?_
    rcases List.mem_append.1 hi with hi | hi
    · exact (hrem i hi).2 hqi
    · rw [hcase.resolve_left (by rw [hqi]; exact Option.some_ne_none i)] at hi
      cases hi
  have hcount := length_without hnd hplan.nodup hgone
  have hdist : r.Distinct := ⟨hnd, fun c hc => (hside.comps c hc).names⟩
  obtain ⟨f, n, hf1, hf2, hf3⟩ := C26_compression [r.mapComponents (Component.reduced rem (standIn reps))]
  have hSeq : [r.mapComponents (Component.reduced rem (standIn reps))].flatMap Recipe.clockIndices =
      (r.clockIndices.filter fun i => !(rem.contains i)).map (standIn reps) := by
    rw [List.flatMap_singleton, clockIndices_reduced hdist.names]
  rw [hSeq] at hf2 hf3
  have hn : n ≤ (r.clockIndices.filter fun i => !((rem ++ reps.flatMap (·.2)).contains i)).length := by
    refine image_length (f := f) fun k h1 h2 => ?_
    obtain ⟨x, hx, rfl⟩ := (hf3 k).2 ⟨h1, h2⟩
    refine ⟨x, ?_, rfl⟩
    obtain ⟨i, hi, rfl⟩ := List.mem_map.1 hx
    obtain ⟨hi, hir⟩ := List.mem_filter.1 hi
    have hir : i ∉ rem := by simpa using hir
    rw [List.mem_filter]
    have hng := standIn_not_gone hplan.good i
    have : standIn reps i ∈ r.clockIndices ∧ standIn reps i ∉ rem := by
      rcases standIn_cases hplan.good i with ⟨_, h⟩ | ⟨p, hp, _, h⟩
      · rw [h]; exact ⟨hi, hir⟩
      · rw [h]
        have h3 := hplan.real p hp
        rw [hdim] at h3
        refine ⟨((hmem p.1).2 h3).resolve_right fun hqi => ?_, fun hm => hplan.leaders p hp (List.mem_append_left _ hm)⟩
        rw [hcase.resolve_left (by rw [hqi]; exact Option.some_ne_none _)] at hp
        cases hp
    refine ⟨this.1, ?_⟩
    simp only [List.contains_eq_mem, List.mem_append, not_or, Bool.not_eq_true', decide_eq_false_iff_not]
    exact ⟨this.2, hng⟩
  have hle : (rem ++ reps.flatMap (·.2)).length ≤ d := by omega
  refine ⟨rem, reps, f, d - (rem ++ reps.flatMap (·.2)).length, g, n,
    (r.clockIndices.filter fun i => !(rem.contains i)).map (standIn reps), ?_, ⟨hplan.nodup, hgone, by omega⟩, hg, hplan.good, hrem, hplan.same,
    hcase, hkeep, fun x hx y hy => (hf2 x hx y hy).2.1, fun x hx => (hf3 _).1 ⟨x, hx, rfl⟩,
    fun i hi hm => List.mem_map_of_mem (List.mem_filter.2 ⟨hi, by simpa using hm⟩), by omega, fun i hi => ?_⟩
  · have hform : (if q.isSome then (r.mapComponents (Component.reduced rem (f ∘ standIn reps))).changeQuotient
        (d - (rem ++ reps.flatMap (·.2)).length) else r.mapComponents (Component.reduced rem (f ∘ standIn reps))) =
        r.reshape (Component.reduced rem (f ∘ standIn reps))
          (if q.isSome then fun _ => d - (rem ++ reps.flatMap (·.2)).length else id) := by
      split
      · exact Recipe.mapComponents_changeQuotient _ _ r
      · exact Recipe.mapComponents_eq _ r
    rw [← hform]
    unfold clockReduceSingle
    rw [hs, ok_bind]
    dsimp only
    rw [hins, ok_bind, hplan.form, count_form, subDim, if_pos hle, ok_bind,
      reduceClocks_ok hdist (fun i hi => hgone i (List.mem_append_left _ hi)) (List.nodup_append'.1 hplan.nodup).1, ok_bind,
      hf1]
    show Except.ok (if q.isSome then ((r.mapComponents _).mapComponents _).changeQuotient _ else (r.mapComponents _).mapComponents _, _) = _
    rw [mapComponents_reduced]
  · have hqi := hside.quots i hi
    rw [hqi] at hlen ⊢
    simp only [Option.toList_some, List.length_singleton] at hlen
    refine ⟨rfl, by omega, by omega⟩

/-- **C60**, one recipe (partial): the reduction of a recipe whose clocks are numbered as in C23 succeeds, and the
system it gives cannot be told apart from the original one. -/
theorem C60_single_partial (env : CompileEnv F) (he : env.Perm) (ord : HashOrder) (acts : Sys F → List String) (r : Recipe)
    (d : Nat) (q : Option Nat) (hnum : (r.clockIndices ++ q.toList).Perm (List.range' 1 d)) (hdim : dim F = d + 1)
    (hmax : dim F ≤ 4294967295) (s : Sys F) (j : Nat) (hs : r.compile env 0 = .ok (s, j)) (hacts : s.ts.IsActions (acts s))
    (ins : List ClockInstr) (hins : findRedundantClocks ord s.ts (acts s) env.fuel = .ok ins) (hside : Side F r q s ins)
    (hmerge : q = none ∨ ∀ c cs, .replace c cs ∈ ins → q = some c) :
    ∃ r' d', clockReduceSingle env ord acts r d q = .ok (r', d') ∧ d' ≤ d ∧
      ∀ (G : Type) [ZoneLib G] (env' : CompileEnv G) (s' : Sys G) (j' : Nat), dim G = d' + 1 → env'.Perm →
        r'.compile env' 0 = .ok (s', j') →
        s.ts.Indistinguishable s'.ts (r.SameValues r') ∧ (s.ts.Consistent ↔ s'.ts.Consistent) ∧
        (s.ts.Deterministic ↔ s'.ts.Deterministic) := by
  obtain ⟨rem, reps, f, d', g, n, S, hred, ⟨_, _, hd⟩, hg, hgood, hrem, hsame, hcase, _, hinj, hrange, hS, hn, hq'⟩ :=
    clockReduceSingle_form env he ord acts r d q hnum hdim hmax s j hs ins hins hside.toReducedBy hmerge
  obtain ⟨hnd, hfresh, hmem, hlen⟩ := numbering hnum
  have hok : r.Ok (dim F) := side_ok hside.toReducedBy fun i hi => by rw [hdim]; exact (hmem i).1 (.inr hi)
  refine ⟨_, d', hred, by omega, ?_⟩
  intro G _ env' s' j' hG he' hs'
  rw [← hG] at hn hq'
  obtain ⟨h1, h2, h3⟩ := side_indistinguishable (G := G) hside hok hnd hfresh he hs hacts hg hgood hrem hsame hinj hrange hS
    hn hq' hcase he' hs'
  exact ⟨h1, h1.consistent h2 h3, h1.deterministic h2 h3⟩

/-! ## Two recipes -/

theorem le_maxClock {L : List Nat} {i : Nat} : ∀ {m : Nat}, i ≤ L.foldl max m ↔ i ≤ m ∨ ∃ x ∈ L, i ≤ x := by
  induction L with
  | nil => intro m; simp
  | cons a L ih =>
    intro m
    rw [List.foldl_cons, ih]
    simp only [List.mem_cons, exists_eq_or_imp, le_max_iff]
    tauto

theorem same_remove {i : Nat} {x : ClockInstr} (h : (ClockInstr.remove i).same x = true) : x = .remove i := by
  cases x with
  | remove j => rw [of_decide_eq_true h]
  | replace _ _ => cases h

theorem same_replace {c : Nat} {cs : List Nat} {x : ClockInstr} (h : (ClockInstr.replace c cs).same x = true) :
    ∃ cs', x = .replace c cs' := by
  cases x with
  | remove j => cases h
  | replace c' cs' =>
    unfold ClockInstr.same at h
    simp only [Bool.and_eq_true, decide_eq_true_eq] at h
    exact ⟨cs', by rw [h.1.1]⟩

/-- The removals that are left of the instructions for one side. -/
theorem filtered_plan {g : ClockGraph} {n : Nat} {ins ins' : List ClockInstr} {rem0 : List Nat}
    {reps0 : List (Nat × List Nat)} (h : Plan g n ins rem0 reps0) {q : Option Nat} {p : Nat → Bool}
    (hmerge : ∀ c cs cs', .replace c cs ∈ ins → .replace c cs' ∈ ins' → q = some c) :
    ∃ rem : List Nat, (ins.filter fun i => ins'.any (i.same ·) && p i.clockIndex && decide (i.clockIndex ≠ q.getD 0)) =
        rem.map .remove ∧ rem.Nodup ∧
      ∀ i ∈ rem, .remove i ∈ ins ∧ .remove i ∈ ins' ∧ p i = true ∧ q ≠ some i ∧ 0 < i ∧ i < n := by
  obtain ⟨rem, reps, -, -, hplan⟩ := h.filter fun i => ins'.any (i.same ·) && p i.clockIndex && decide (i.clockIndex ≠ q.getD 0)
  have hin : ∀ x, x ∈ rem.map ClockInstr.remove ++ reps.map (fun p => ClockInstr.replace p.1 p.2) →
      x ∈ ins ∧ (∃ y ∈ ins', x.same y = true) ∧ p x.clockIndex = true ∧ x.clockIndex ≠ q.getD 0 := fun x hx => by
    rw [← hplan.form] at hx
    obtain ⟨h1, h2⟩ := List.mem_filter.1 hx
    simp only [Bool.and_eq_true, decide_eq_true_eq, List.any_eq_true] at h2
    exact ⟨h1, h2.1.1, h2.1.2, h2.2⟩
  have hre : reps = [] := by
    refine List.eq_nil_iff_forall_not_mem.2 fun x hx => ?_
    obtain ⟨h1, ⟨y, hy, hs⟩, _, h2⟩ := hin _ (List.mem_append_right _ (List.mem_map_of_mem hx))
    obtain ⟨cs', rfl⟩ := same_replace hs
    have := hmerge _ _ _ h1 hy
    subst this
    exact h2 rfl
  subst hre
  refine ⟨rem, by rw [hplan.form]; simp, (List.nodup_append'.1 hplan.nodup).1, fun i hi => ?_⟩
  obtain ⟨h1, ⟨y, hy, hs⟩, h2, h3⟩ := hin _ (List.mem_append_left _ (List.mem_map_of_mem hi))
  rw [same_remove hs] at hy
  refine ⟨h1, hy, h2, ?_, hplan.range i (List.mem_append_left _ hi)⟩
  rintro rfl
  exact h3 rfl

theorem reduceClocks_removed {rem : List Nat} {r : Recipe} (hd : r.Distinct) (hi : ∀ i ∈ rem, i ∈ r.clockIndices)
    (hn : rem.Nodup) : r.reduceClocks (rem.map .remove) = .ok (r.mapComponents (Component.reduced rem id)) := by
  have := reduceClocks_ok (reps := []) hd hi hn
  rw [List.map_nil, List.append_nil] at this
  exact this

/-- What the reduction of two recipes gives: `rl` and `rr` are the clocks removed from the left and from the right one,
`f` is the new numbering of the others. -/
theorem clockReduceTwo_form (env1 env2 : CompileEnv F) (he1 : env1.Perm) (he2 : env2.Perm) (ord1 ord2 : HashOrder)
    (acts : Sys F → List String) (l r : Recipe) (d : Nat) (q : Option Nat)
    (hnum : (l.clockIndices ++ r.clockIndices ++ q.toList).Perm (List.range' 1 d))
    (horder : ∀ x ∈ l.clockIndices, ∀ y ∈ r.clockIndices, x < y) (hdim : dim F = d + 1) (hmax : dim F ≤ 4294967295)
    (s t : Sys F) (j k : Nat) (hs : l.compile env1 0 = .ok (s, j)) (ht : r.compile env2 0 = .ok (t, k))
    (cl cr : List ClockInstr)
    (hcl : findRedundantClocks ord1 s.ts (acts s) env1.fuel = .ok cl)
    (hcr : findRedundantClocks ord2 t.ts (acts t) env2.fuel = .ok cr) (hl : ReducedBy F l q cl) (hr : ReducedBy F r q cr)
    (hmerge : ∀ c cs cs', .replace c cs ∈ cl → .replace c cs' ∈ cr → q = some c) :
    ∃ rl rr f d', clockReduceTwo env1 env2 ord1 ord2 acts l r d q =
        .ok (l.reshape (Component.reduced rl f) (if q.isSome then fun _ => d' else id),
          r.reshape (Component.reduced rr f) (if q.isSome then fun _ => d' else id), d') ∧ d' ≤ d ∧
      l.Reduces (dim F) (d' + 1) rl f (if q.isSome then fun _ => d' else id) d' ∧
      r.Reduces (dim F) (d' + 1) rr f (if q.isSome then fun _ => d' else id) d' ∧
      (l.clockMap rl f d').Inj ∧ (r.clockMap rr f d').Inj ∧
      (l.quotientClocks ≠ [] → ∃ q, l.SteadyFor q) ∧ (r.quotientClocks ≠ [] → ∃ q, r.SteadyFor q) ∧
      (∀ x ∈ l.clockIndices, x ∉ rl → ∀ y ∈ r.clockIndices, y ∉ rr → f x ≠ f y) ∧
      (q.isSome → (∀ x ∈ l.clockIndices, x ∉ rl → f x < d') ∧ ∀ x ∈ r.clockIndices, x ∉ rr → f x < d') := by
  obtain ⟨hnd, hfresh, hmem, hlen⟩ := numbering hnum
  have hq : ∀ i, q = some i → 0 < i ∧ i < dim F := fun i hi => by rw [hdim]; exact (hmem i).1 (.inr hi)
  have hokl : l.Ok (dim F) := side_ok hl hq
  have hokr : r.Ok (dim F) := side_ok hr hq
  have haccl := Recipe.compile_accepted he1 hokl hs
  have haccr := Recipe.compile_accepted he2 hokr ht
  obtain ⟨gl, rl0, pl0, hgl, hpl0⟩ := plan_of_redundant haccl hmax hcl
  obtain ⟨gr, rr0, pr0, hgr, hpr0⟩ := plan_of_redundant haccr hmax hcr
  obtain ⟨rl, hfl, hndl, hrl⟩ := filtered_plan hpl0 (p := fun c => decide (c ≤ l.allClocks.foldl max 0)) hmerge
  obtain ⟨rr, hfr, hndr, hrr⟩ := filtered_plan hpr0 (ins' := cl) (q := q)
    (p := fun c => decide (l.allClocks.foldl max 0 < c)) fun c cs cs' h1 h2 => hmerge c cs' cs h2 h1
  have hall : l.allClocks = l.clockIndices := rfl
  rw [hall] at hrl hrr hfl hfr
  have hinl : ∀ i ∈ rl, i ∈ l.clockIndices := by
    intro i hi
    obtain ⟨_, _, h1, h2, h3, h4⟩ := hrl i hi
    rw [hdim] at h4
    have := ((hmem i).2 ⟨h3, h4⟩).resolve_right h2
    rcases List.mem_append.1 this with h | h
    · exact h
    · rcases le_maxClock.1 (of_decide_eq_true h1) with h0 | ⟨x, hx, hle⟩
      · omega
      · have := horder x hx i h
        omega
  have hinr : ∀ i ∈ rr, i ∈ r.clockIndices := by
    intro i hi
    obtain ⟨_, _, h1, h2, h3, h4⟩ := hrr i hi
    rw [hdim] at h4
    have := ((hmem i).2 ⟨h3, h4⟩).resolve_right h2
    rcases List.mem_append.1 this with h | h
    · have h1 := of_decide_eq_true h1
      exact absurd (le_maxClock.2 (.inr ⟨i, h, le_refl i⟩)) (not_le.2 h1)
    · exact h
  have hnd' := List.nodup_append'.1 hnd
  have hcl' := length_without hnd'.1 hndl hinl
  have hcr' := length_without hnd'.2.1 hndr hinr
  rw [List.length_append] at hlen
  have hdl : l.Distinct := ⟨hnd'.1, fun c hc => (hl.comps c hc).names⟩
  have hdr : r.Distinct := ⟨hnd'.2.1, fun c hc => (hr.comps c hc).names⟩
  obtain ⟨f, n, hf1, hf2, hf3⟩ := C26_compression
    [l.mapComponents (Component.reduced rl id), r.mapComponents (Component.reduced rr id)]
  have hSeq : [l.mapComponents (Component.reduced rl id), r.mapComponents (Component.reduced rr id)].flatMap
      Recipe.clockIndices = (l.clockIndices.filter fun i => !(rl.contains i)) ++
        (r.clockIndices.filter fun i => !(rr.contains i)) := by
    rw [List.flatMap_cons, List.flatMap_singleton, clockIndices_reduced hdl.names, clockIndices_reduced hdr.names,
      List.map_id, List.map_id]
  rw [hSeq] at hf2 hf3
  have hn := image_length (f := f) fun k h1 h2 => (hf3 k).2 ⟨h1, h2⟩
  rw [List.length_append] at hn
  have hle : (rl ++ rr).length ≤ d := by rw [List.length_append]; omega
  have hle' := hle
  rw [List.length_append] at hle'
  have hform : ∀ (x : Recipe) (rem : List Nat), (if q.isSome then
      (x.mapComponents (Component.reduced rem f)).changeQuotient (d - (rl ++ rr).length)
        else x.mapComponents (Component.reduced rem f)) =
      x.reshape (Component.reduced rem f) (if q.isSome then fun _ => d - (rl ++ rr).length else id) := by
    intro x rem
    split
    · exact Recipe.mapComponents_changeQuotient _ _ x
    · exact Recipe.mapComponents_eq _ x
  refine ⟨rl, rr, f, d - (rl ++ rr).length, ?_, by omega, ?_⟩
  · unfold clockReduceTwo
    rw [hs, ok_bind]
    dsimp only
    rw [hcl, ok_bind, ht, ok_bind]
    dsimp only
    rw [hcr, ok_bind]
    unfold filterRedundant
    dsimp only
    rw [hall, hfl, hfr]
    have hsum : ((rl.map ClockInstr.remove ++ rr.map ClockInstr.remove).map ClockInstr.removedCount).sum =
        (rl ++ rr).length := by
      have := count_form (rl ++ rr) []
      rw [List.map_nil, List.append_nil, List.flatMap_nil, List.append_nil, List.map_append] at this
      exact this
    rw [hsum, subDim, if_pos hle, ok_bind, reduceClocks_removed hdr hinr hndr, ok_bind,
      reduceClocks_removed hdl hinl hndl, ok_bind, hf1]
    show (if q.isSome then Except.ok (((l.mapComponents _).mapComponents _).changeQuotient _,
      ((r.mapComponents _).mapComponents _).changeQuotient _, _) else
      Except.ok ((l.mapComponents _).mapComponents _, (r.mapComponents _).mapComponents _, _)) = _
    rw [mapComponents_reduced, mapComponents_reduced, ← hform, ← hform]
    cases q <;> rfl
  · have hq' : ∀ i, q = some i → (if q.isSome then fun _ => d - (rl ++ rr).length else id) i = d - (rl ++ rr).length ∧
        n < d - (rl ++ rr).length ∧ d - (rl ++ rr).length < d - (rl ++ rr).length + 1 := by
      intro i hqi
      rw [hqi] at hlen ⊢
      simp only [Option.toList_some, List.length_singleton] at hlen
      rw [List.length_append]
      refine ⟨rfl, by omega, by omega⟩
    have inl : ∀ i ∈ l.clockIndices, i ∉ rl → i ∈ (l.clockIndices.filter fun i => !(rl.contains i)) ++
        (r.clockIndices.filter fun i => !(rr.contains i)) := fun i hi hm =>
      List.mem_append_left _ (List.mem_filter.2 ⟨hi, by simpa using hm⟩)
    have inr : ∀ i ∈ r.clockIndices, i ∉ rr → i ∈ (l.clockIndices.filter fun i => !(rl.contains i)) ++
        (r.clockIndices.filter fun i => !(rr.contains i)) := fun i hi hm =>
      List.mem_append_right _ (List.mem_filter.2 ⟨hi, by simpa using hm⟩)
    obtain ⟨h1, -, h2, h3⟩ := side_reduces hl hokl hnd'.1 (fun i hi hm => hfresh i hi (List.mem_append_left _ hm))
      (reps := []) (fun i hi => ⟨(hrl i hi).1, (hrl i hi).2.2.2.1⟩)
      (f := f) (n := n) (m := d - (rl ++ rr).length + 1) (q' := d - (rl ++ rr).length)
      (h := if q.isSome then fun _ => d - (rl ++ rr).length else id)
      (fun x hx y hy => (hf2 x hx y hy).2.1) (fun x hx => (hf3 _).1 ⟨x, hx, rfl⟩) inl
      (by rw [List.length_append]; omega) (fun i hi => hq' i (hl.quots i hi)) (.inr rfl)
    obtain ⟨k1, -, k2, k3⟩ := side_reduces hr hokr hnd'.2.1 (fun i hi hm => hfresh i hi (List.mem_append_right _ hm))
      (reps := []) (fun i hi => ⟨(hrr i hi).1, (hrr i hi).2.2.2.1⟩)
      (f := f) (n := n) (m := d - (rl ++ rr).length + 1) (q' := d - (rl ++ rr).length)
      (h := if q.isSome then fun _ => d - (rl ++ rr).length else id)
      (fun x hx y hy => (hf2 x hx y hy).2.1) (fun x hx => (hf3 _).1 ⟨x, hx, rfl⟩) inr
      (by rw [List.length_append]; omega) (fun i hi => hq' i (hr.quots i hi)) (.inr rfl)
    refine ⟨h1, k1, h2 rfl, k2 rfl, fun e => (h3 e).2, fun e => (k3 e).2, fun x hx hx' y hy hy' e => ?_, fun hq => ?_⟩
    · have := (hf2 _ (inl x hx hx') _ (inr y hy hy')).2.1 e
      have := horder x hx y hy
      omega
    · obtain ⟨i, hi⟩ := Option.isSome_iff_exists.1 hq
      refine ⟨fun x hx hx' => ?_, fun x hx hx' => ?_⟩
      · exact lt_of_le_of_lt ((hf3 _).1 ⟨x, inl x hx hx', rfl⟩).2 (hq' i hi).2.1
      · exact lt_of_le_of_lt ((hf3 _).1 ⟨x, inr x hx hx', rfl⟩).2 (hq' i hi).2.1

/-- **C60**, the two recipes of a refinement (partial): the reduction of two recipes whose clocks are numbered as in C23
succeeds; neither of the systems it gives can be told apart from the original one, so that the left one refines the
right one exactly if the original systems do. -/
theorem C60_two_partial (env1 env2 : CompileEnv F) (he1 : env1.Perm) (he2 : env2.Perm) (ord1 ord2 : HashOrder)
    (acts : Sys F → List String) (l r : Recipe) (d : Nat) (q : Option Nat)
    (hnum : (l.clockIndices ++ r.clockIndices ++ q.toList).Perm (List.range' 1 d))
    (horder : ∀ x ∈ l.clockIndices, ∀ y ∈ r.clockIndices, x < y) (hdim : dim F = d + 1) (hmax : dim F ≤ 4294967295)
    (s t : Sys F) (j k : Nat) (hs : l.compile env1 0 = .ok (s, j)) (ht : r.compile env2 0 = .ok (t, k))
    (cl cr : List ClockInstr)
    (hcl : findRedundantClocks ord1 s.ts (acts s) env1.fuel = .ok cl)
    (hcr : findRedundantClocks ord2 t.ts (acts t) env2.fuel = .ok cr) (hl : ReducedBy F l q cl) (hr : ReducedBy F r q cr)
    (hmerge : ∀ c cs cs', .replace c cs ∈ cl → .replace c cs' ∈ cr → q = some c) :
    ∃ l' r' d', clockReduceTwo env1 env2 ord1 ord2 acts l r d q = .ok (l', r', d') ∧ d' ≤ d ∧
      ∀ (G : Type) [ZoneLib G] (env1' env2' : CompileEnv G) (s' t' : Sys G) (i' j' m' k' : Nat), dim G = d' + 1 →
        env1'.Perm → env2'.Perm → l'.compile env1' i' = .ok (s', j') → r'.compile env2' m' = .ok (t', k') →
        s.ts.Indistinguishable s'.ts (l.SameValues l') ∧ t.ts.Indistinguishable t'.ts (r.SameValues r') ∧
        (Refines s.ts t.ts ↔ Refines s'.ts t'.ts) := by
  have hq : ∀ i, q = some i → 0 < i ∧ i < dim F := fun i hi => by
    rw [hdim]; exact ((numbering hnum).2.2.1 i).1 (.inr hi)
  have haccl := Recipe.compile_accepted he1 (side_ok hl hq) hs
  have haccr := Recipe.compile_accepted he2 (side_ok hr hq) ht
  obtain ⟨rl, rr, f, d', hred, hd, h1, k1, h2, k2, h3, k3, -⟩ := clockReduceTwo_form env1 env2 he1 he2 ord1 ord2 acts l r d
    q hnum horder hdim hmax s t j k hs ht cl cr hcl hcr hl hr hmerge
  refine ⟨_, _, d', hred, hd, ?_⟩
  intro G _ env1' env2' s' t' i' j' m' k' hG he1' he2' hs' ht'
  rw [← hG] at h1 k1
  have a := h1.indistinguishable he1 he1' hs hs' (fun e => ⟨h2, h3 e⟩) fun l a ts t _ _ _ _ => h2.coherent _
  have b := k1.indistinguishable he2 he2' ht ht' (fun e => ⟨k2, k3 e⟩) fun l a ts t _ _ _ _ => k2.coherent _
  exact ⟨a, b, a.refines haccl.good (Recipe.compile_accepted he1' h1.reduced_ok hs').good haccr.good
    (Recipe.compile_accepted he2' k1.reduced_ok ht').good b⟩

/-! ## Queries -/

/-- The recipe of a query about one system is numbered as `C60_single_partial` asks. -/
theorem C60_numbered {load : String → Res Component} (hload : ∀ n c, load n = .ok c → c.decls.Numbered) {e : SysExpr}
    {r : Recipe} {d : Nat} {q : Option Nat} (h : getRecipes load [e] 0 none = .ok ([r], d, q)) :
    (r.clockIndices ++ q.toList).Perm (List.range' 1 d) ∧ ∀ i ∈ r.quotientClocks, q = some i := by
  obtain ⟨h1, h2⟩ := C23_indices_partial load hload [e] [r] d q h
  exact ⟨by simpa using h1, h2 r (List.mem_singleton.2 rfl)⟩

/-- The recipes of a refinement are numbered as `C60_two_partial` asks. -/
theorem C60_numbered_two {load : String → Res Component} (hload : ∀ n c, load n = .ok c → c.decls.Numbered)
    {e e' : SysExpr} {l r : Recipe} {d : Nat} {q : Option Nat}
    (h : getRecipes load [e, e'] 0 none = .ok ([l, r], d, q)) :
    (l.clockIndices ++ r.clockIndices ++ q.toList).Perm (List.range' 1 d) ∧
    (∀ x ∈ l.clockIndices, ∀ y ∈ r.clockIndices, x < y) ∧ (∀ i ∈ l.quotientClocks, q = some i) ∧
    ∀ i ∈ r.quotientClocks, q = some i := by
  obtain ⟨h1, h2⟩ := C23_indices_partial load hload [e, e'] [l, r] d q h
  refine ⟨by simpa using h1, ?_, h2 l (by simp), h2 r (by simp)⟩
  obtain ⟨⟨a, d1, q1⟩, ha, h⟩ := bind_ok h
  obtain ⟨⟨bs, d2, q2⟩, hb, h⟩ := bind_ok h
  obtain ⟨⟨b, d3, q3⟩, hb, h'⟩ := bind_ok hb
  cases h'
  cases h
  intro x hx y hy
  have h3 := (recipe_block hload e ha).2.1.mem_iff.1 (List.mem_append_left _ hx)
  have h4 := (recipe_block hload e' hb).2.1.mem_iff.1 (List.mem_append_left _ hy)
  rw [List.mem_range'_1] at h3 h4
  omega

/-! ## The property is false if a clock is merged with the clock of a quotient

`K` resets its clock `x` exactly when the quotient `T \\ S` goes to its error location and resets its clock, so the
analysis asks to replace the clock of the quotient (3) by `x` (1).  No component declares the clock of the quotient, and
afterwards the quotient is given the last index of the smaller dimension, which is that of `z`. -/

def exT : Component := ⟨"T", ⟨[], []⟩, [⟨"T0", none, .initial, "NORMAL"⟩, ⟨"T1", none, .normal, "NORMAL"⟩],
  [⟨"t", "T1", "T0", .output, none, none, "a"⟩]⟩

def exS : Component := ⟨"S", ⟨[], []⟩, [⟨"S0", none, .initial, "NORMAL"⟩],
  [⟨"s", "S0", "S0", .output, none, none, "a"⟩]⟩

def exK : Component := ⟨"K", ⟨[], [("x", 1), ("z", 2)]⟩,
  [⟨"K0", none, .initial, "NORMAL"⟩, ⟨"K1", none, .normal, "NORMAL"⟩, ⟨"K2", none, .normal, "NORMAL"⟩],
  [⟨"k0", "K0", "K1", .output, none, some [⟨"x", .int 0⟩], "a"⟩,
   ⟨"k1", "K1", "K2", .output, some (.and (.ge (.var "z") (.int 5)) (.le (.var "x") (.int 3))), none, "b"⟩]⟩

/-- `K || (T \\ S)`, with the clock `q` for the quotient -/
def recK (q : Nat) : Recipe := .composition (.component exK none) (.quotient (.component exT none) (.component exS none) q)

/-- Federations of dimension 3. -/
abbrev Fed3 := ZoneImpl.Fed 3
instance fed3Lib : ZoneLib Fed3 := ZoneImpl.lib 2

theorem dim_fed3 : dim Fed3 = 3 := rfl

def envK (F : Type) : CompileEnv F := ⟨fun _ l => l, fun _ => ⟨fun _ => ["a"], fun _ => [], fun _ => ["a"]⟩, 20⟩
def actsK {F : Type} [ZoneLib F] : Sys F → List String := fun s => s.ts.outputs ++ s.ts.inputs

section
variable (F : Type) [ZoneLib F]

def locS : LocTree F := .leaf (.simple "S0") none .initial
def locT : LocTree F := .leaf (.simple "T0") none .initial
def moveS : Transition F := ⟨.simple "s", univ, locS F, []⟩
def toUniversal : F :=
  append (inverse ((locS F).applyInvariants univ)) (inverse (append empty (Sys.allowedFed (locS F) (moveS F))))
def toError : F := inter (Sys.allowedFed (locS F) (moveS F)) (inverse empty)

/-- The locations of the system: `K` at its first location, and the others after the quotient has gone to its error
location. -/
def locK0 : LocTree F := getOk (LocTree.compose (.leaf (.simple "K0") none .initial)
  (LocTree.merge (locT F) (locS F)) .composition) rfl
def locK1 (q : Nat) : LocTree F :=
  getOk (LocTree.compose (.leaf (.simple "K1") none .normal) (LocTree.errorLoc q) .composition) rfl
def locK2 (q : Nat) : LocTree F :=
  getOk (LocTree.compose (.leaf (.simple "K2") none .normal) (LocTree.errorLoc q) .composition) rfl
end

theorem compile_withQuotient {env : CompileEnv F} {K T S : Component} {q : Nat} {k t s : CompComp F} {x y : Sys F}
    (hk : CompComp.compile (env.locOrder 0) K 0 = .ok k) (ht : CompComp.compile (env.locOrder 1) T 1 = .ok t)
    (hs : CompComp.compile (env.locOrder 2) S 2 = .ok s)
    (hq : Sys.newQuotient (fun p => env.checks (true :: p)) env.fuel (.comp t) (.comp s) q = .ok x)
    (hc : Sys.newComposition (.comp k) x = .ok y) :
    (Recipe.composition (.component K none) (.quotient (.component T none) (.component S none) q)).compile env 0 =
      .ok (y, 3) := by
  simp only [Recipe.compile, CompileEnv.sub, hk, ht, hs, hq, hc, ok_bind, zero_add]

theorem newQuotient_getOk {orders : List Bool → Orders} {fuel : Nat} {t s x : Sys F} {q : Nat}
    (h : (Sys.newQuotient orders fuel t s q).toBool = true) (hx : Sys.newQuotientUnchecked t s q = .ok x) :
    Sys.newQuotient orders fuel t s q = .ok x := by
  have h2 := getOk_eq h
  have h3 := newQuotient_unchecked h2
  rw [hx] at h3
  rw [h2]
  exact h3.symm

def partK4 : Sys Fed4 := .comp (getOk (CompComp.compile id exK 0) (by decide +kernel))
def partT4 : Sys Fed4 := .comp (getOk (CompComp.compile id exT 1) (by decide +kernel))
def partS4 : Sys Fed4 := .comp (getOk (CompComp.compile id exS 2) (by decide +kernel))
def partQ4 : Sys Fed4 := getOk (Sys.newQuotientUnchecked partT4 partS4 3) (by decide +kernel)
def sysK4 : Sys Fed4 := getOk (Sys.newComposition partK4 partQ4) (by decide +kernel)

theorem sysK4_compiled : (recK 3).compile (envK Fed4) 0 = .ok (sysK4, 3) :=
  compile_withQuotient (getOk_eq _) (getOk_eq _) (getOk_eq _) (newQuotient_getOk (by decide +kernel) (getOk_eq _)) (getOk_eq _)

theorem partQ4_next (a : String) (h : a ∈ ["a", "quotient_new_input0"]) :
    partQ4.next (LocTree.merge (locT Fed4) (locS Fed4)) a = .ok (if a = "a" then
      [⟨.quotient [] [.simple "s"], toError Fed4, .errorLoc 3, [⟨3, 0⟩]⟩] else []) := by
  have h1 : isEmpty (toUniversal Fed4) = true := by decide +kernel
  have h2 : isEmpty (toError Fed4) = false := by decide +kernel
  have h3 : isEmpty (inverse ((locS Fed4).applyInvariants univ)) = true := by decide +kernel
  have h4 : isEmpty (inter (inverse (locT Fed4).invOrUniv) (locS Fed4).invOrUniv) = true := by decide +kernel
  simp only [List.mem_cons, List.not_mem_nil, or_false] at h
  rcases h with rfl | rfl
  · show Except.ok (List.filter (fun t => !(isEmpty t.guard))
      [(⟨.quotient [] [.simple "s"], toUniversal Fed4, .universalLoc, []⟩ : Transition Fed4),
        ⟨.quotient [] [.simple "s"], toError Fed4, .errorLoc 3, [⟨3, 0⟩]⟩]) = _
    simp [h1, h2]
  · show Except.ok (List.filter (fun t => !(isEmpty t.guard))
      [(⟨.none, inverse ((locS Fed4).applyInvariants univ), .universalLoc, []⟩ : Transition Fed4),
        ⟨.none, inter (inverse (locT Fed4).invOrUniv) (locS Fed4).invOrUniv, .errorLoc 3, [⟨3, 0⟩]⟩]) = _
    simp [h3, h4]

theorem sysK4_first : ∃ i, sysK4.next (locK0 Fed4) "a" =
    .ok [⟨i, inter univ (toError Fed4), locK1 Fed4 3, [⟨1, 0⟩, ⟨3, 0⟩]⟩] := by
  refine ⟨.composition (.simple "k0") (.quotient [] [.simple "s"]), ?_⟩
  show (partQ4.next (LocTree.merge (locT Fed4) (locS Fed4)) "a" >>= fun right =>
    Transition.combinations [⟨.simple "k0", univ, .leaf (.simple "K1") none .normal, [⟨1, 0⟩]⟩] right .composition) = _
  rw [partQ4_next "a" (by simp), ok_bind]
  rfl

theorem sysK4_second : ∃ i, sysK4.next (locK1 Fed4 3) "b" =
    .ok [⟨i, inter (inter (constrain univ 0 2 (.LE (-5))) (constrain univ 1 0 (.LE 3))) univ, locK2 Fed4 3, []⟩] :=
  ⟨_, rfl⟩

def partK3 : Sys Fed3 := .comp (getOk (CompComp.compile id exK 0) (by decide +kernel))
def partT3 : Sys Fed3 := .comp (getOk (CompComp.compile id exT 1) (by decide +kernel))
def partS3 : Sys Fed3 := .comp (getOk (CompComp.compile id exS 2) (by decide +kernel))
def partQ3 : Sys Fed3 := getOk (Sys.newQuotientUnchecked partT3 partS3 2) (by decide +kernel)
def sysK3 : Sys Fed3 := getOk (Sys.newComposition partK3 partQ3) (by decide +kernel)

theorem sysK3_compiled : (recK 2).compile (envK Fed3) 0 = .ok (sysK3, 3) :=
  compile_withQuotient (getOk_eq _) (getOk_eq _) (getOk_eq _) (newQuotient_getOk (by decide +kernel) (getOk_eq _)) (getOk_eq _)

theorem partQ3_next (a : String) (h : a ∈ ["a", "quotient_new_input0"]) :
    partQ3.next (LocTree.merge (locT Fed3) (locS Fed3)) a = .ok (if a = "a" then
      [⟨.quotient [] [.simple "s"], toError Fed3, .errorLoc 2, [⟨2, 0⟩]⟩] else []) := by
  have h1 : isEmpty (toUniversal Fed3) = true := by decide +kernel
  have h2 : isEmpty (toError Fed3) = false := by decide +kernel
  have h3 : isEmpty (inverse ((locS Fed3).applyInvariants univ)) = true := by decide +kernel
  have h4 : isEmpty (inter (inverse (locT Fed3).invOrUniv) (locS Fed3).invOrUniv) = true := by decide +kernel
  simp only [List.mem_cons, List.not_mem_nil, or_false] at h
  rcases h with rfl | rfl
  · show Except.ok (List.filter (fun t => !(isEmpty t.guard))
      [(⟨.quotient [] [.simple "s"], toUniversal Fed3, .universalLoc, []⟩ : Transition Fed3),
        ⟨.quotient [] [.simple "s"], toError Fed3, .errorLoc 2, [⟨2, 0⟩]⟩]) = _
    simp [h1, h2]
  · show Except.ok (List.filter (fun t => !(isEmpty t.guard))
      [(⟨.none, inverse ((locS Fed3).applyInvariants univ), .universalLoc, []⟩ : Transition Fed3),
        ⟨.none, inter (inverse (locT Fed3).invOrUniv) (locS Fed3).invOrUniv, .errorLoc 2, [⟨2, 0⟩]⟩]) = _
    simp [h3, h4]

theorem sysK3_first : ∃ i, sysK3.next (locK0 Fed3) "a" =
    .ok [⟨i, inter univ (toError Fed3), locK1 Fed3 2, [⟨1, 0⟩, ⟨2, 0⟩]⟩] := by
  refine ⟨.composition (.simple "k0") (.quotient [] [.simple "s"]), ?_⟩
  show (partQ3.next (LocTree.merge (locT Fed3) (locS Fed3)) "a" >>= fun right =>
    Transition.combinations [⟨.simple "k0", univ, .leaf (.simple "K1") none .normal, [⟨1, 0⟩]⟩] right .composition) = _
  rw [partQ3_next "a" (by simp), ok_bind]
  rfl

theorem sysK3_second : ∃ i, sysK3.next (locK1 Fed3 2) "b" =
    .ok [⟨i, inter (inter (constrain univ 0 2 (.LE (-5))) (constrain univ 1 0 (.LE 3))) univ, locK2 Fed3 2, []⟩] :=
  ⟨_, rfl⟩


theorem clockReduce_recK : findRedundantClocks plainOrder sysK4.ts (actsK sysK4) 20 = .ok [.replace 1 [3]] ∧
    clockReduceSingle (envK Fed4) plainOrder actsK (recK 3) 3 (some 3) = .ok (recK 2, 2) := by
  have h : findRedundantClocks plainOrder sysK4.ts (actsK sysK4) 20 = .ok [.replace 1 [3]] := by decide +kernel
  refine ⟨h, ?_⟩
  unfold clockReduceSingle
  rw [sysK4_compiled, ok_bind]
  dsimp only
  show (findRedundantClocks plainOrder sysK4.ts (actsK sysK4) 20 >>= _) = _
  rw [h, ok_bind]
  rfl


theorem sysK3_moves (a : String) (h : sysK3.hasAction a = true) : a = "a" ∨ a = "b" ∨ a = "quotient_new_input0" := by
  have h1 : sysK3.inputs = ["quotient_new_input0"] := by decide +kernel
  have h2 : sysK3.outputs = ["a", "b"] := by decide +kernel
  unfold Sys.hasAction at h
  rw [h1, h2] at h
  simp at h
  tauto

theorem locK1_inv {v : Val} (h : v ∈ InvSet (locK1 Fed3 2)) : v 2 = 0 := by
  have : v ∈ den (constrainEq univ 2 0 : Fed3) := h _ rfl
  rw [den_constrainEq _ _ _ (by decide) (by decide)] at this
  simpa using this.2

theorem sysK3_reach {l : LocTree Fed3} {v : Val} (h : sysK3.ts.Reach l v) :
    l = locK0 Fed3 ∨ (l = locK1 Fed3 2 ∧ v ∈ InvSet (locK1 Fed3 2)) := by
  induction h with
  | init h hv =>
    have h' : sysK3.ts.initialLoc = .ok (some (locK0 Fed3)) := rfl
    rw [h'] at h
    cases h
    exact .inl rfl
  | delay h hd ih =>
    rcases ih with rfl | ⟨rfl, _⟩
    · exact .inl rfl
    · exact .inr ⟨rfl, hd.2 _ hd.1 (le_refl _)⟩
  | act h hs ih =>
    obtain ⟨ha, trans, hn, t, ht, hc, rfl, rfl⟩ := hs
    rcases ih with rfl | ⟨rfl, hi⟩
    · rcases sysK3_moves _ ha with rfl | rfl | rfl
      · obtain ⟨i, h1⟩ := sysK3_first
        have h1 : sysK3.ts.next (locK0 Fed3) "a" = _ := h1
        rw [h1] at hn
        cases hn
        rw [List.mem_singleton] at ht
        subst ht
        exact .inr ⟨rfl, hc.2⟩
      · have h1 : sysK3.ts.next (locK0 Fed3) "b" = .ok [] := rfl
        rw [h1] at hn
        cases hn
        cases ht
      · have h1 : sysK3.ts.next (locK0 Fed3) "quotient_new_input0" = .ok [] := by
          show (partQ3.next (LocTree.merge (locT Fed3) (locS Fed3)) "quotient_new_input0" >>= fun right =>
            Transition.combinations [Transition.withoutId (.leaf (.simple "K0") none .initial)] right .composition) = _
          rw [partQ3_next _ (by simp), ok_bind]
          rfl
        rw [h1] at hn
        cases hn
        cases ht
    · rcases sysK3_moves _ ha with rfl | rfl | rfl
      · have h1 : sysK3.ts.next (locK1 Fed3 2) "a" = .ok [] := rfl
        rw [h1] at hn
        cases hn
        cases ht
      · obtain ⟨i, h1⟩ := sysK3_second
        have h1 : sysK3.ts.next (locK1 Fed3 2) "b" = _ := h1
        rw [h1] at hn
        cases hn
        rw [List.mem_singleton] at ht
        subst ht
        have hz := locK1_inv hi
        have := hc.1
        dsimp only at this
        rw [den_inter, den_inter, den_constrain _ _ _ _ (by decide) (by decide)] at this
        have h5 := this.1.1.2
        have h6 := (den_valid this.2).1
        simp only [Ineq.Sat, hz, h6] at h5
        norm_num at h5
      · have h1 : ∃ i g, sysK3.ts.next (locK1 Fed3 2) "quotient_new_input0" = .ok [⟨i, g, locK1 Fed3 2, []⟩] := ⟨_, _, rfl⟩
        obtain ⟨i, g, h1⟩ := h1
        rw [h1] at hn
        cases hn
        rw [List.mem_singleton] at ht
        subst ht
        exact .inr ⟨rfl, hc.2⟩

theorem toError_mem {v : Val} (hv : Valid (dim Fed4) v) : v ∈ den (toError Fed4) :=
  (isUniverse_iff _).1 (by decide +kernel) v hv

/-- **C60** without the exclusion of merged quotient clocks is false: the analysis of `K || (T \\ S)` merges the clock
of the quotient with `x`, and after the reduction the quotient uses the clock `z` of `K`; the original system gets to
the location `K2`, the reduced one does not. -/
theorem C60_violated_quotient_clock :
    (recK 3).compile (envK Fed4) 0 = .ok (sysK4, 3) ∧
    findRedundantClocks plainOrder sysK4.ts (actsK sysK4) 20 = .ok [.replace 1 [3]] ∧
    clockReduceSingle (envK Fed4) plainOrder actsK (recK 3) 3 (some 3) = .ok (recK 2, 2) ∧
    (recK 2).compile (envK Fed3) 0 = .ok (sysK3, 3) ∧
    (∃ l v, sysK4.ts.Reach l v ∧ l.id = .composition (.simple "K2") (.special .error)) ∧
    ∀ l v, sysK3.ts.Reach l v → l.id ≠ .composition (.simple "K2") (.special .error) := by
  refine ⟨sysK4_compiled, clockReduce_recK.1, clockReduce_recK.2, sysK3_compiled, ?_, ?_⟩
  · have h0 : sysK4.ts.Reach (locK0 Fed4) zeroVal := .init rfl (by intro i hi; cases hi)
    let v1 : Val := delay (dim Fed4) zeroVal 5
    have hv1 : Valid (dim Fed4) v1 := delay_valid Sys.zeroVal_valid (by norm_num)
    have h1 : sysK4.ts.Reach (locK0 Fed4) v1 := .delay h0 ⟨by norm_num, fun d _ _ => (by intro i hi; cases hi)⟩
    obtain ⟨i, hn⟩ := sysK4_first
    let v2 : Val := runUpdates [⟨1, 0⟩, ⟨3, 0⟩] v1
    have hv2 : Valid (dim Fed4) v2 := by
      obtain ⟨g0, g1, g2⟩ := hv1
      refine ⟨by simp [v2, runUpdates, assign, g0], fun i => ?_, fun i hi => ?_⟩
      · have := g1 i
        simp only [v2, runUpdates, assign]
        split_ifs <;> simp_all
      · have := g2 i hi
        simp only [v2, runUpdates, assign]
        split_ifs <;> simp_all
    have hi2 : v2 ∈ InvSet (locK1 Fed4 3) := by
      intro z hz
      cases (show some (constrainEq univ 3 0 : Fed4) = some z from hz)
      rw [den_constrainEq _ _ _ (by decide) (by decide), den_univ]
      exact ⟨hv2, by simp [v2, runUpdates]⟩
    have h2 : sysK4.ts.Reach (locK1 Fed4 3) v2 := by
      refine .act h1 (a := "a") ⟨by decide +kernel, _, hn, _, List.mem_singleton.2 rfl, ⟨?_, hi2⟩, rfl, rfl⟩
      show v1 ∈ den (inter univ (toError Fed4))
      rw [den_inter, den_univ]
      exact ⟨hv1, toError_mem hv1⟩
    obtain ⟨i', hn'⟩ := sysK4_second
    refine ⟨locK2 Fed4 3, _, .act h2 (a := "b") ⟨by decide +kernel, _, hn', _, List.mem_singleton.2 rfl, ⟨?_, ?_⟩, rfl, rfl⟩, rfl⟩
    · show v2 ∈ den (inter (inter (constrain univ 0 2 (.LE (-5))) (constrain univ 1 0 (.LE 3))) univ)
      rw [den_inter, den_inter, den_constrain _ _ _ _ (by decide) (by decide),
        den_constrain _ _ _ _ (by decide) (by decide), den_univ]
      refine ⟨⟨⟨hv2, ?_⟩, hv2, ?_⟩, hv2⟩
      · have : (2 : Nat) < dim Fed4 := by decide
        simp [Ineq.Sat, v2, v1, runUpdates, assign, delay, zeroVal, this]
      · simp [Ineq.Sat, v2, v1, runUpdates, assign, delay, zeroVal]
    · exact hi2
  · intro l v h
    rcases sysK3_reach h with rfl | ⟨rfl, _⟩
    · intro e
      have : LocId.composition (.simple "K0") (.quotient (.simple "T0") (.simple "S0")) =
        .composition (.simple "K2") (.special .error) := e
      simp at this
    · intro e
      have : LocId.composition (.simple "K1") (.special .error) = .composition (.simple "K2") (.special .error) := e
      simp at this


/-! ## Concrete cases -/

theorem envK_perm {F : Type} : (envK F).Perm := fun _ _ => .refl _

/-- `x` and `y` are always reset together, `u` is reset and never read. -/
def exPair : Component := ⟨"P", ⟨[], [("x", 1), ("u", 2), ("y", 3)]⟩,
  [⟨"L0", some (.le (.var "y") (.int 9)), .initial, "NORMAL"⟩, ⟨"L1", none, .normal, "NORMAL"⟩],
  [⟨"e", "L0", "L1", .input, some (.and (.le (.var "x") (.int 3)) (.ge (.var "y") (.int 1))),
     some [⟨"y", .int 0⟩, ⟨"u", .int 0⟩, ⟨"x", .int 0⟩], "a"⟩,
   ⟨"f", "L1", "L0", .output, some (.le (.var "x") (.int 5)), some [⟨"u", .int 0⟩], "b"⟩]⟩

def recPair : Recipe := .component exPair none
def sysPair : Sys Fed4 := .comp (getOk (CompComp.compile id exPair 0) (by decide +kernel))

theorem exPair_reducible : exPair.Reducible (dim Fed4) := by
  have kx : IsClock exPair.decls (.var "x") 1 := .inr ⟨"x", rfl, by decide⟩
  have ky : IsClock exPair.decls (.var "y") 3 := .inr ⟨"y", rfl, by decide⟩
  refine ⟨⟨Component.ok_of_okB (by decide), ?_, ?_, by decide +kernel, by decide +kernel, by decide +kernel⟩, ⟨?_, ?_⟩,
    by decide⟩ <;> (
    intro e he g hg
    simp only [exPair, List.mem_cons, List.not_mem_nil, or_false] at he
    rcases he with rfl | rfl <;> cases hg)
  · exact ⟨.posConst (.chain (.clock kx)) rfl, .posConst (.chain (.clock ky)) rfl⟩
  · exact .posConst (.chain (.clock kx)) rfl
  · exact .posConst (.chain (.clock ky)) rfl
  all_goals simp [BoolE.NamesOnly, Arith.NamesOnly]

theorem recPair_compiled : recPair.compile (envK Fed4) 0 = .ok (sysPair, 1) := rfl

theorem recPair_side : Side Fed4 recPair none sysPair [.remove 2, .replace 1 [3]] := by
  refine ⟨⟨?_, fun h => absurd rfl h, fun i hi => ?_, ?_⟩, by decide +kernel, by decide +kernel⟩
  · intro c hc
    rw [List.mem_singleton.1 hc]
    exact exPair_reducible
  · cases hi
  · intro i hi c hc n j hj hn
    rw [List.mem_singleton.1 hc] at hn ⊢
    simp only [List.mem_cons, ClockInstr.remove.injEq, List.not_mem_nil, or_false, reduceCtorEq] at hi
    subst hi
    rw [List.mem_singleton.1 hj] at hn
    simp only [exPair, List.mem_cons, List.not_mem_nil, or_false, Prod.mk.injEq] at hn
    have : n = "u" := by
      rcases hn with ⟨_, h⟩ | ⟨h, _⟩ | ⟨_, h⟩
      · cases h
      · exact h
      · cases h
    subst this
    refine ⟨fun e he g hg hm => ?_, fun l hl g hg hm => ?_⟩
    · simp only [exPair, List.mem_cons, List.not_mem_nil, or_false] at he
      rcases he with rfl | rfl <;> (cases hg; exact absurd hm (by decide))
    · simp only [exPair, List.mem_cons, List.not_mem_nil, or_false] at hl
      rcases hl with rfl | rfl
      · cases hg; exact absurd hm (by decide)
      · cases hg

theorem isActions_actsK {s : Sys F} (h : (s.ts.outputs ++ s.ts.inputs).Nodup) : s.ts.IsActions (actsK s) :=
  ⟨h, fun a => by unfold actsK; rw [List.mem_append, or_comm]⟩

/-- The hypotheses of `C60_single_partial` hold of the example, where one clock is removed and one is replaced; the
system keeps one of its three clocks. -/
example : ∃ r', clockReduceSingle (envK Fed4) plainOrder actsK recPair 3 none = .ok (r', 1) ∧
    ∀ (G : Type) [ZoneLib G] (env' : CompileEnv G) (s' : Sys G) (j' : Nat), dim G = 2 → env'.Perm →
      r'.compile env' 0 = .ok (s', j') → sysPair.ts.Indistinguishable s'.ts (recPair.SameValues r') := by
  obtain ⟨r', d', h, _, h'⟩ := C60_single_partial (envK Fed4) envK_perm plainOrder actsK recPair 3 none (by decide) dim_fed4
    (by decide) sysPair 1 recPair_compiled (isActions_actsK (by decide +kernel)) _ rfl recPair_side (.inl rfl)
  have hd : d' = 1 := by
    have : (clockReduceSingle (envK Fed4) plainOrder actsK recPair 3 none).map (·.2) = .ok 1 := rfl
    rw [h] at this
    cases this
    rfl
  subst hd
  exact ⟨r', h, fun G _ env' s' j' h1 h2 h3 => (h' G env' s' j' h1 h2 h3).1⟩

/-- The clock `u` is reset and never read; `x` is read. -/
def exU : Component := ⟨"K", ⟨[], [("u", 1), ("x", 2)]⟩,
  [⟨"K0", none, .initial, "NORMAL"⟩, ⟨"K1", none, .normal, "NORMAL"⟩, ⟨"K2", none, .normal, "NORMAL"⟩],
  [⟨"k0", "K0", "K1", .output, none, some [⟨"u", .int 0⟩], "a"⟩,
   ⟨"k1", "K1", "K2", .output, some (.ge (.var "x") (.int 5)), none, "b"⟩]⟩

def recU : Recipe := .composition (.component exU none) (.quotient (.component exT none) (.component exS none) 3)
def sysU : Sys Fed4 := getOk (Sys.newComposition (.comp (getOk (CompComp.compile id exU 0) (by decide +kernel))) partQ4)
  (by decide +kernel)

theorem recU_compiled : recU.compile (envK Fed4) 0 = .ok (sysU, 3) :=
  compile_withQuotient (getOk_eq _) (getOk_eq _) (getOk_eq _) (newQuotient_getOk (by decide +kernel) (getOk_eq _)) (getOk_eq _)

theorem recU_redundant : findRedundantClocks plainOrder sysU.ts (actsK sysU) 20 = .ok [.remove 1] := by decide +kernel

theorem exU_reducible : exU.Reducible (dim Fed4) := by
  have kx : IsClock exU.decls (.var "x") 2 := .inr ⟨"x", rfl, by decide⟩
  refine ⟨⟨Component.ok_of_okB (by decide), ?_, ?_, by decide +kernel, by decide +kernel, by decide +kernel⟩, ⟨?_, ?_⟩,
    by decide⟩
  · intro e he g hg
    simp only [exU, List.mem_cons, List.not_mem_nil, or_false] at he
    rcases he with rfl | rfl <;> cases hg
    exact .posConst (.chain (.clock kx)) rfl
  · intro e he g hg
    simp only [exU, List.mem_cons, List.not_mem_nil, or_false] at he
    rcases he with rfl | rfl | rfl <;> cases hg
  · intro e he g hg
    simp only [exU, List.mem_cons, List.not_mem_nil, or_false] at he
    rcases he with rfl | rfl <;> cases hg
    simp [BoolE.NamesOnly, Arith.NamesOnly]
  · intro e he g hg
    simp only [exU, List.mem_cons, List.not_mem_nil, or_false] at he
    rcases he with rfl | rfl | rfl <;> cases hg

theorem exT_reducible : exT.Reducible (dim Fed4) := by
  refine ⟨⟨Component.ok_of_okB (by decide), ?_, ?_, by decide +kernel, by decide +kernel, by decide +kernel⟩, ⟨?_, ?_⟩,
    by decide⟩ <;> (
    intro e he g hg
    simp only [exT, List.mem_cons, List.not_mem_nil, or_false] at he
    rcases he with rfl | rfl <;> cases hg)

theorem exS_reducible : exS.Reducible (dim Fed4) := by
  refine ⟨⟨Component.ok_of_okB (by decide), ?_, ?_, by decide +kernel, by decide +kernel, by decide +kernel⟩, ⟨?_, ?_⟩,
    by decide⟩ <;> (
    intro e he g hg
    simp only [exS, List.mem_cons, List.not_mem_nil, or_false] at he
    subst he; cases hg)

theorem exU_harmless : exU.HarmlessFor [1] := by
  intro n j hj hn
  rw [List.mem_singleton.1 hj] at hn
  simp only [exU, List.mem_cons, List.not_mem_nil, or_false, Prod.mk.injEq] at hn
  have : n = "u" := by
    rcases hn with ⟨h, _⟩ | ⟨_, h⟩
    · exact h
    · cases h
  subst this
  refine ⟨fun e he g hg hm => ?_, fun l hl g hg hm => ?_⟩
  · simp only [exU, List.mem_cons, List.not_mem_nil, or_false] at he
    rcases he with rfl | rfl
    · cases hg
    · cases hg; exact absurd hm (by decide)
  · simp only [exU, List.mem_cons, List.not_mem_nil, or_false] at hl
    rcases hl with rfl | rfl | rfl <;> cases hg

theorem recU_side : Side Fed4 recU (some 3) sysU [.remove 1] := by
  have hcs : ∀ c ∈ recU.components, c = exU ∨ c = exT ∨ c = exS := fun c hc => by
    simpa [recU, Recipe.components] using hc
  refine ⟨⟨?_, fun _ => ?_, fun i hi => ?_, ?_⟩, by decide +kernel, by decide +kernel⟩
  · intro c hc
    rcases hcs c hc with rfl | rfl | rfl
    exacts [exU_reducible, exT_reducible, exS_reducible]
  · intro c hc e he us hus
    rcases hcs c hc with rfl | rfl | rfl
    · simp only [exU, List.mem_cons, List.not_mem_nil, or_false] at he
      rcases he with rfl | rfl
      · cases hus
        intro u hu u' hu' _
        rw [List.mem_singleton.1 hu, List.mem_singleton.1 hu']
      · cases hus
    · rw [List.mem_singleton.1 he] at hus; cases hus
    · rw [List.mem_singleton.1 he] at hus; cases hus
  · simp [recU, Recipe.quotientClocks] at hi
    rw [hi]
  · intro i hi c hc
    cases List.mem_singleton.1 hi
    rcases hcs c hc with rfl | rfl | rfl
    · exact exU_harmless
    · intro n j _ hn; cases hn
    · intro n j _ hn; cases hn

/-- The hypotheses of `C60_single_partial` hold of a system with a quotient, whose clock gets another number. -/
example : ∃ r', clockReduceSingle (envK Fed4) plainOrder actsK recU 3 (some 3) = .ok (r', 2) ∧ r'.quotientClocks = [2] ∧
    ∀ (G : Type) [ZoneLib G] (env' : CompileEnv G) (s' : Sys G) (j' : Nat), dim G = 3 → env'.Perm →
      r'.compile env' 0 = .ok (s', j') → sysU.ts.Indistinguishable s'.ts (recU.SameValues r') := by
  obtain ⟨r', d', h, _, h'⟩ := C60_single_partial (envK Fed4) envK_perm plainOrder actsK recU 3 (some 3) (by decide) dim_fed4
    (by decide) sysU 3 recU_compiled (isActions_actsK (by decide +kernel)) _ recU_redundant recU_side
    (.inr fun c cs hc => by cases List.mem_singleton.1 hc)
  have hd : d' = 2 ∧ r'.quotientClocks = [2] := by
    unfold clockReduceSingle at h
    rw [recU_compiled, ok_bind] at h
    dsimp only at h
    have h : (findRedundantClocks plainOrder sysU.ts (actsK sysU) 20 >>= _) = _ := h
    rw [recU_redundant, ok_bind] at h
    cases h
    exact ⟨rfl, rfl⟩
  obtain ⟨rfl, hq⟩ := hd
  exact ⟨r', h, hq, fun G _ env' s' j' h1 h2 h3 => (h' G env' s' j' h1 h2 h3).1⟩

/-- A component with one clock, which is read. -/
def exRight : Component := ⟨"R", ⟨[], [("y", 3)]⟩, [⟨"R0", none, .initial, "NORMAL"⟩],
  [⟨"r0", "R0", "R0", .output, none, none, "a"⟩,
   ⟨"r1", "R0", "R0", .output, some (.ge (.var "y") (.int 5)), none, "b"⟩]⟩

def sysLeft : Sys Fed4 := .comp (getOk (CompComp.compile id exU 0) (by decide +kernel))
def sysRight : Sys Fed4 := .comp (getOk (CompComp.compile id exRight 0) (by decide +kernel))

theorem exRight_reducible : exRight.Reducible (dim Fed4) := by
  have ky : IsClock exRight.decls (.var "y") 3 := .inr ⟨"y", rfl, by decide⟩
  refine ⟨⟨Component.ok_of_okB (by decide), ?_, ?_, by decide +kernel, by decide +kernel, by decide +kernel⟩, ⟨?_, ?_⟩,
    by decide⟩
  · intro e he g hg
    simp only [exRight, List.mem_cons, List.not_mem_nil, or_false] at he
    rcases he with rfl | rfl <;> cases hg
    exact .posConst (.chain (.clock ky)) rfl
  · intro e he g hg
    rw [List.mem_singleton.1 he] at hg
    cases hg
  · intro e he g hg
    simp only [exRight, List.mem_cons, List.not_mem_nil, or_false] at he
    rcases he with rfl | rfl <;> cases hg
    simp [BoolE.NamesOnly, Arith.NamesOnly]
  · intro e he g hg
    rw [List.mem_singleton.1 he] at hg
    cases hg

theorem sysLeft_side : Side Fed4 (.component exU none) none sysLeft [.remove 1, .remove 3] := by
  refine ⟨⟨?_, fun h => absurd rfl h, fun i hi => ?_, ?_⟩, by decide +kernel, by decide +kernel⟩
  · intro c hc
    rw [List.mem_singleton.1 hc]
    exact exU_reducible
  · cases hi
  · intro i hi c hc
    rw [List.mem_singleton.1 hc]
    simp only [List.mem_cons, ClockInstr.remove.injEq, List.not_mem_nil, or_false] at hi
    rcases hi with rfl | rfl
    · exact exU_harmless
    · intro n j hj hn
      rw [List.mem_singleton.1 hj] at hn
      simp [exU] at hn

theorem sysRight_side : Side Fed4 (.component exRight none) none sysRight [.remove 1, .remove 2] := by
  refine ⟨⟨?_, fun h => absurd rfl h, fun i hi => ?_, ?_⟩, by decide +kernel, by decide +kernel⟩
  · intro c hc
    rw [List.mem_singleton.1 hc]
    exact exRight_reducible
  · cases hi
  · intro i hi c hc
    rw [List.mem_singleton.1 hc]
    simp only [List.mem_cons, ClockInstr.remove.injEq, List.not_mem_nil, or_false] at hi
    intro n j hj hn
    rw [List.mem_singleton.1 hj] at hn
    rcases hi with rfl | rfl <;> simp [exRight] at hn

/-- The hypotheses of `C60_two_partial` hold: of the clocks of the two components only the first of the left one is
removed. -/
example : ∃ l' r', clockReduceTwo (envK Fed4) (envK Fed4) plainOrder plainOrder actsK (.component exU none)
      (.component exRight none) 3 none = .ok (l', r', 2) ∧
    ∀ (G : Type) [ZoneLib G] (env1' env2' : CompileEnv G) (s' t' : Sys G) (i' j' m' k' : Nat), dim G = 3 →
      env1'.Perm → env2'.Perm → l'.compile env1' i' = .ok (s', j') → r'.compile env2' m' = .ok (t', k') →
      (Refines sysLeft.ts sysRight.ts ↔ Refines s'.ts t'.ts) := by
  obtain ⟨l', r', d', h, _, h'⟩ := C60_two_partial (envK Fed4) (envK Fed4) envK_perm envK_perm plainOrder plainOrder actsK
    (.component exU none) (.component exRight none) 3 none (by decide) (by decide) dim_fed4 (by decide) sysLeft sysRight 1 1
    rfl rfl [.remove 1, .remove 3] [.remove 1, .remove 2] rfl rfl sysLeft_side.toReducedBy
    sysRight_side.toReducedBy (fun c cs cs' h _ => by simp at h)
  have hd : d' = 2 := by
    have : (clockReduceTwo (envK Fed4) (envK Fed4) plainOrder plainOrder actsK (.component exU none)
      (.component exRight none) 3 none).map (·.2.2) = .ok 2 := rfl
    rw [h] at this
    cases this
    rfl
  subst hd
  exact ⟨l', r', h, fun G _ env1' env2' s' t' i' j' m' k' h1 h2 h3 h4 h5 => (h' G env1' env2' s' t' i' j' m' k' h1 h2 h3 h4 h5).2.2⟩

end Reveaal
