import Verif.Lemmas.ReduceClocks
import Verif.Lemmas.Indistinguishable
import Verif.Lemmas.ClockGraph
import Verif.Props.C24

/-!
# The clock map of a reduction, and what follows from it
-/

namespace Reveaal
open ZoneLib
variable {F G : Type} [ZoneLib F] [ZoneLib G]

/-! ## Alike systems cannot be told apart -/

theorem pairwise_forall2 {α β : Type} {R : α → β → Prop} {P : α → α → Prop} {Q : β → β → Prop} {l : List α}
    {m : List β} (h : List.Forall₂ R l m) (hpq : ∀ a ∈ l, ∀ a' ∈ l, ∀ b b', R a b → R a' b' → (P a a' ↔ Q b b')) :
    l.Pairwise P ↔ m.Pairwise Q := by
  induction h with
  | nil => simp
  | @cons a b l m hab hlm ih =>
    rw [List.pairwise_cons, List.pairwise_cons, ih fun x hx y hy => hpq x (by simp [hx]) y (by simp [hy])]
    refine and_congr_left fun _ => ⟨fun h b' hb' => ?_, fun h a' ha' => ?_⟩
    · obtain ⟨a', ha', hr⟩ := forall2_mem_right hlm b' hb'
      exact (hpq a (by simp) a' (by simp [ha']) b b' hab hr).1 (h a' ha')
    · obtain ⟨b', hb', hr⟩ := forall2_mem_left hlm a' ha'
      exact (hpq a (by simp) a' (by simp [ha']) b b' hab hr).2 (h b' hb')

theorem Sys.Alike.indistinguishable {ρ : ClockMap} {s : Sys F} {s' : Sys G} (hs : s.Accepted) (h : Sys.Alike ρ s s')
    (hf : ρ.Fits (dim F) (dim G))
    (hco : ∀ l a ts t, s.Linked l → s.hasAction a = true → s.next l a = .ok ts → t ∈ ts → ρ.Coherent t.updates) :
    s.ts.Indistinguishable s'.ts ρ.Agree := by
  refine ⟨h.actions.1, h.actions.2, _, h.bisim hs hf hco, ?_, ?_⟩
  · obtain ⟨o, h1, _⟩ := hs.good.initial
    rcases h.initial h1 with ⟨rfl, h2⟩ | ⟨l, l', rfl, h2, h3⟩
    · exact .inl ⟨h1, h2⟩
    · exact .inr ⟨l, l', h1, h2, .init h1, h3⟩
  · rintro l m ⟨hl, hlm⟩
    refine ⟨hlm.eqs.1, hlm.eqs.2.1, fun v w hv hw ha => ?_⟩
    have key : ∀ a, s.hasAction a = true → ∃ ts ts', s.next l a = .ok ts ∧ s'.next m a = .ok ts' ∧
        (ts.Pairwise (fun t t' => ¬ (CanTake t v ∧ CanTake t' v)) ↔
          ts'.Pairwise fun t t' => ¬ (CanTake t w ∧ CanTake t' w)) := by
      intro a hact
      obtain ⟨ts, hn, _⟩ := hs.good.next l a (hl.isLoc hs) hact
      obtain ⟨ts', hn', hts⟩ := Sys.Alike.next hf h (hl.isLoc hs) hlm hn
      refine ⟨ts, ts', hn, hn', pairwise_forall2 hts fun t ht t' ht' u u' hu hu' => ?_⟩
      have e : ∀ x ∈ ts, ∀ y, TransAlike ρ x y → (CanTake x v ↔ CanTake y w) := fun x hx y hy =>
        hy.canTake hf (hs.good.next_ok (hl.isLoc hs) hact hn x hx).2.upd (hco l a ts x hl hact hn hx) hv hw ha
      rw [e t ht u hu, e t' ht' u' hu']
    constructor
    · intro hd a ts' hact hn'
      obtain ⟨ts, ts1, h1, h2, h3⟩ := key a ((h.hasAction a).symm.trans hact)
      have hn' : s'.next m a = .ok ts' := hn'
      rw [h2] at hn'; cases hn'
      exact h3.1 (hd a ts ((h.hasAction a).symm.trans hact) h1)
    · intro hd a ts hact hn
      obtain ⟨ts1, ts', h1, h2, h3⟩ := key a hact
      have hn : s.next l a = .ok ts := hn
      rw [h1] at hn; cases hn
      exact h3.2 (hd a ts' ((h.hasAction a).trans hact) h2)

/-! ## The clock map -/

/-- Where the clocks of a recipe are found after the reduction. -/
def Recipe.clockMap (r : Recipe) (rem : List Nat) (g : Nat → Nat) (q' : Nat) : ClockMap := fun i =>
  if i ∈ rem then none
  else if i ∈ r.clockIndices then some (g i)
  else if i ∈ r.quotientClocks then some q'
  else none

/-- What has to be known about a reduction. -/
structure Recipe.Reduces (r : Recipe) (n m : Nat) (rem : List Nat) (g h : Nat → Nat) (q' : Nat) : Prop where
  ok : r.Ok n
  comps : ∀ c ∈ r.components, c.Reducible n ∧ c.HarmlessFor rem
  range : ∀ i ∈ r.clockIndices, i ∉ rem → 0 < g i ∧ g i < m
  quots : ∀ q ∈ r.quotientClocks, q ∉ rem ∧ q ∉ r.clockIndices ∧ h q = q' ∧ 0 < q' ∧ q' < m

section
variable {r : Recipe} {n m : Nat} {rem : List Nat} {g h : Nat → Nat} {q' : Nat}

theorem clockIndices_lt (hr : r.Ok n) {i : Nat} (hi : i ∈ r.clockIndices) : 0 < i ∧ i < n := by
  obtain ⟨c, hc, hi⟩ := List.mem_flatMap.1 hi
  obtain ⟨p, hp, rfl⟩ := List.mem_map.1 hi
  exact (hr.1 c hc).decls p hp

theorem Recipe.Reduces.fits (hr : r.Reduces n m rem g h q') : (r.clockMap rem g q').Fits n m := by
  intro i k hk
  unfold Recipe.clockMap at hk
  split at hk
  · cases hk
  · rename_i hrem
    split at hk
    · rename_i hi
      cases hk
      exact ⟨clockIndices_lt hr.ok hi, hr.range i hi hrem⟩
    · split at hk
      · rename_i hi
        cases hk
        exact ⟨hr.ok.2 i hi, (hr.quots i hi).2.2.2⟩
      · cases hk

theorem clockMap_on {c : Component} (hc : c ∈ r.components) : (r.clockMap rem g q').On rem g c := by
  intro p hp
  have : p.2 ∈ r.clockIndices := List.mem_flatMap.2 ⟨c, hc, List.mem_map.2 ⟨p, hp, rfl⟩⟩
  unfold Recipe.clockMap
  rw [if_pos this]

theorem Recipe.Reduces.quot (hr : r.Reduces n m rem g h q') {q : Nat} (hq : q ∈ r.quotientClocks) :
    r.clockMap rem g q' q = some (h q) := by
  obtain ⟨h1, h2, h3, _⟩ := hr.quots q hq
  unfold Recipe.clockMap
  rw [if_neg h1, if_neg h2, if_pos hq, h3]

theorem mem_zip_map {α β : Type} {f : α → β} {l : List α} {p : α × β} (hp : p ∈ l.zip (l.map f)) :
    p.1 ∈ l ∧ p.2 = f p.1 := by
  induction l with
  | nil => cases hp
  | cons a l ih =>
    rw [List.map_cons, List.zip_cons_cons, List.mem_cons] at hp
    rcases hp with rfl | hp
    · simp
    · obtain ⟨h1, h2⟩ := ih hp
      exact ⟨by simp [h1], h2⟩

theorem zip_map_mem {α β : Type} {f : α → β} {l : List α} {a : α} (ha : a ∈ l) : (a, f a) ∈ l.zip (l.map f) := by
  induction l with
  | nil => cases ha
  | cons b l ih =>
    rw [List.map_cons, List.zip_cons_cons, List.mem_cons]
    rcases List.mem_cons.1 ha with rfl | ha
    · exact .inl rfl
    · exact .inr (ih ha)

theorem lookup_reduced {c : Component} (hn : (c.decls.clocks.map (·.1)).Nodup) {p : String × Nat}
    (hp : p ∈ c.decls.clocks) (hrem : p.2 ∉ rem) : (c.reduced rem g).decls.clocks.lookup p.1 = some (g p.2) := by
  have h1 : (c.reduced rem g).decls.clocks.lookup p.1 = ((c.without rem).decls.clocks.lookup p.1).map g :=
    lookup_withClocks
  have h2 : (c.without rem).decls.clocks.lookup p.1 = c.decls.clocks.lookup p.1 := by
    refine lookup_strip fun hN => ?_
    obtain ⟨i, hi, hm⟩ := Decls.mem_namesOf.1 hN
    have := congrArg Prod.snd (List.inj_on_of_nodup_map hn hm hp rfl)
    dsimp only at this
    exact hrem (this ▸ hi)
  rw [h1, h2, lookup_of_mem hn hp]
  rfl

theorem lookup_reduced_mem {c : Component} (hn : (c.decls.clocks.map (·.1)).Nodup) {p : String × Nat}
    (hp : p ∈ c.decls.clocks) {k : Nat} (hk : (c.reduced rem g).decls.clocks.lookup p.1 = some k) :
    p.2 ∉ rem ∧ k = g p.2 := by
  have h1 : (c.reduced rem g).decls.clocks.lookup p.1 = ((c.without rem).decls.clocks.lookup p.1).map g :=
    lookup_withClocks
  by_cases hrem : p.2 ∈ rem
  · have : p.1 ∈ c.decls.namesOf rem := Decls.mem_namesOf.2 ⟨p.2, hrem, hp⟩
    have h2 : (c.without rem).decls.clocks.lookup p.1 = none := lookup_strip_none this
    rw [h1, h2] at hk
    cases hk
  · rw [lookup_reduced hn hp hrem] at hk
    cases hk
    exact ⟨hrem, rfl⟩

/-- The clock map relates exactly the valuations in which the clocks of the two recipes have the same values. -/
theorem Recipe.Reduces.sameValues (hr : r.Reduces n m rem g h q') :
    r.SameValues (r.reshape (Component.reduced rem g) h) = (r.clockMap rem g q').Agree := by
  funext v w
  apply propext
  unfold Recipe.SameValues
  rw [Recipe.reshape_components, Recipe.reshape_quotientClocks]
  constructor
  · rintro ⟨h1, h2⟩ i k hk
    unfold Recipe.clockMap at hk
    split at hk
    · cases hk
    · rename_i hrem
      split at hk
      · rename_i hi
        cases hk
        obtain ⟨c, hc, hi⟩ := List.mem_flatMap.1 hi
        obtain ⟨p, hp, rfl⟩ := List.mem_map.1 hi
        have hn := (hr.comps c hc).1.names
        exact (h1 _ (zip_map_mem hc) p.1 p.2 (g p.2) (lookup_of_mem hn hp) (lookup_reduced hn hp hrem)).symm
      · split at hk
        · rename_i hq
          cases hk
          have := h2 _ (zip_map_mem (f := h) hq)
          dsimp only at this
          rw [this, (hr.quots i hq).2.2.1]
        · cases hk
  · intro ha
    refine ⟨fun p hp => ?_, fun p hp => ?_⟩
    · obtain ⟨hc, he⟩ := mem_zip_map hp
      rw [he]
      intro x i k h1 h2
      have hp := lookup_mem h1
      obtain ⟨h3, rfl⟩ := lookup_reduced_mem (hr.comps _ hc).1.names (p := (x, i)) hp h2
      have := clockMap_on (q' := q') (g := g) (rem := rem) hc _ hp
      rw [if_neg h3] at this
      exact (ha _ _ this).symm
    · obtain ⟨hq, he⟩ := mem_zip_map hp
      rw [he]
      exact (ha _ _ (hr.quot hq)).symm

theorem Recipe.Reduces.reduced_ok (hr : r.Reduces n (dim G) rem g h q') : (r.reshape (Component.reduced rem g) h).Ok (dim G) := by
  refine ⟨fun c' hc' => ?_, fun q hq => ?_⟩
  · rw [Recipe.reshape_components] at hc'
    obtain ⟨c, hc, rfl⟩ := List.mem_map.1 hc'
    obtain ⟨⟨hcl, hby, hn⟩, _⟩ := hr.comps c hc
    refine ⟨?_, ?_, ?_, ?_⟩
    · intro p hp
      obtain ⟨x, hx, rfl⟩ := List.mem_map.1 hp
      rw [without_clocks hn] at hx
      obtain ⟨hx, hrem⟩ := List.mem_filter.1 hx
      exact hr.range x.2 (List.mem_flatMap.2 ⟨c, hc, List.mem_map.2 ⟨x, hx, rfl⟩⟩) (by simpa using hrem)
    · intro e he b hb
      obtain ⟨e0, he0, rfl⟩ := List.mem_map.1 he
      obtain ⟨b0, hb0, rfl⟩ := Option.map_eq_some_iff.1 hb
      exact namesOnly_clocksIn (namesOnly_strip (hby.guards e0 he0 b0 hb0) _) _
    · intro l hl b hb
      obtain ⟨l0, hl0, rfl⟩ := List.mem_map.1 hl
      obtain ⟨b0, hb0, rfl⟩ := Option.map_eq_some_iff.1 hb
      exact namesOnly_clocksIn (namesOnly_strip (hby.invs l0 hl0 b0 hb0) _) _
    · intro e he us hus u hu v hv
      obtain ⟨e0, he0, rfl⟩ := List.mem_map.1 he
      obtain ⟨us0, hus0, rfl⟩ := Option.map_eq_some_iff.1 hus
      exact hcl.ok.updates e0 he0 us0 hus0 u (List.mem_filter.1 hu).1 v hv
  · rw [Recipe.reshape_quotientClocks] at hq
    obtain ⟨q0, hq0, rfl⟩ := List.mem_map.1 hq
    obtain ⟨_, _, h1, h2⟩ := hr.quots q0 hq0
    rw [h1]
    exact h2

end

/-- A recipe and its reduction are compiled to systems that cannot be told apart. -/
theorem Recipe.Reduces.indistinguishable {r : Recipe} {rem : List Nat} {g h : Nat → Nat} {q' : Nat}
    (hr : r.Reduces (dim F) (dim G) rem g h q') {env : CompileEnv F} {env' : CompileEnv G} (he : env.Perm)
    (he' : env'.Perm) {i j i' j' : Nat} {s : Sys F} {s' : Sys G} (hs : r.compile env i = .ok (s, j))
    (hs' : (r.reshape (Component.reduced rem g) h).compile env' i' = .ok (s', j'))
    (hcalm : r.quotientClocks ≠ [] → (r.clockMap rem g q').Inj ∧ ∃ q, r.SteadyFor q)
    (hco : ∀ l a ts t, s.Linked l → s.hasAction a = true → s.next l a = .ok ts → t ∈ ts →
      (r.clockMap rem g q').Coherent t.updates) :
    s.ts.Indistinguishable s'.ts (r.SameValues (r.reshape (Component.reduced rem g) h)) := by
  rw [hr.sameValues]
  refine Sys.Alike.indistinguishable (Recipe.compile_accepted he hr.ok hs) ?_ hr.fits hco
  exact Recipe.compile_alike hr.fits he he' ⟨hr.ok, fun c hc => ⟨(hr.comps c hc).1, clockMap_on hc, (hr.comps c hc).2⟩,
    fun q hq => hr.quot hq, hcalm⟩ hs hs'

/-! ## Clocks that are always assigned the same values -/

open ClockGraph ClockMap in
theorem assigned_lookup (us : List CUpdate) (x : Nat) :
    (assigned us).lookup x = (lastValue us x).map fun v => (v % 4294967296).toNat := by
  induction us using List.reverseRecOn with
  | nil => rfl
  | append_singleton us u ih =>
    rw [lastValue_append]
    unfold assigned at ih ⊢
    rw [List.foldl_append, List.foldl_cons, List.foldl_nil, lookup_hmInsert]
    by_cases hx : x = u.clock
    · rw [if_pos hx, if_pos hx.symm]
      rfl
    · rw [if_neg hx, if_neg fun e => hx e.symm, ih]

theorem lastValue_mem {us : List CUpdate} {x : Nat} {v : Int} (h : ClockMap.lastValue us x = some v) :
    ∃ u ∈ us, u.clock = x ∧ u.value = v := by
  induction us using List.reverseRecOn with
  | nil => cases h
  | append_singleton us u ih =>
    rw [ClockMap.lastValue_append] at h
    split at h
    · rename_i hu
      cases h
      exact ⟨u, by simp, hu, rfl⟩
    · obtain ⟨u', h1, h2⟩ := ih h
      exact ⟨u', by simp [h1], h2⟩

open ClockGraph in
theorem lastValue_eq {us : List CUpdate} {x y : Nat} (h : (assigned us).lookup x = (assigned us).lookup y)
    (hv : ∀ u ∈ us, 0 ≤ u.value ∧ u.value < 2147483648) : ClockMap.lastValue us x = ClockMap.lastValue us y := by
  rw [assigned_lookup, assigned_lookup] at h
  cases hx : ClockMap.lastValue us x with
  | none =>
    cases hy : ClockMap.lastValue us y with
    | none => rfl
    | some b => rw [hx, hy] at h; cases h
  | some a =>
    cases hy : ClockMap.lastValue us y with
    | none => rw [hx, hy] at h; cases h
    | some b =>
      rw [hx, hy] at h
      obtain ⟨u, h1, _, rfl⟩ := lastValue_mem hx
      obtain ⟨u', h1', _, rfl⟩ := lastValue_mem hy
      have := hv u h1
      have := hv u' h1'
      simp only [Option.map_some, Option.some.injEq] at h
      congr 1
      omega

end Reveaal
