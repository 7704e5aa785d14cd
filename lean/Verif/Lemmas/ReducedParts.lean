import Verif.Lemmas.ReducedTo
import Verif.Props.C13

/-!
# The components of a system after clock reduction
-/

namespace Reveaal
open ZoneLib
variable {F G : Type} [ZoneLib F] [ZoneLib G]

theorem compile_edgesAgree {c : Component} (hc : c.Ok (dim F)) (ha : c.UpdatesAgree)
    {order : List (LocId × LocTree F) → List (LocId × LocTree F)} {ins outs : List String} {id : Nat} {x : CompComp F}
    (hx : CompComp.compileWith order c ins outs id = .ok x) : x.EdgesAgree := by
  unfold CompComp.compileWith at hx
  split at hx
  · cases hx
  obtain ⟨locs, h1, hx⟩ := bind_ok hx
  obtain ⟨edges, h2, hx⟩ := bind_ok hx
  cases hx
  intro p hp y hy
  obtain ⟨e, he, _, h3⟩ := buildEdges_source h2 p hp y hy fun q hq => by
    obtain ⟨_, _, rfl⟩ := List.mem_map.1 hq
    rfl
  exact (fromEdge_updates hc he h3).2 ha

section
variable {c : Component} {rem : List Nat} {f : Nat → Nat} {ρ : ClockMap}

theorem clockIndex_reduced (hn : (c.decls.clocks.map (·.1)).Nodup) {x : String} (hx : x ∉ c.decls.namesOf rem) :
    (c.reduced rem f).decls.clocks.lookup x = (c.decls.clocks.lookup x).map f := by
  have h1 : (c.reduced rem f).decls.clocks.lookup x = ((c.without rem).decls.clocks.lookup x).map f := lookup_withClocks
  rw [h1]
  congr 1
  exact lookup_strip hx

/-- If different clocks stay different, a reduced component assigns no two values to one clock either. -/
theorem Component.UpdatesAgree.reduced (hn : (c.decls.clocks.map (·.1)).Nodup) (hρ : ρ.On rem f c) (hi : ρ.Inj)
    (h : c.UpdatesAgree) : (c.reduced rem f).UpdatesAgree := by
  intro e he us hus u hu u' hu' hk
  obtain ⟨e0, he0, rfl⟩ := List.mem_map.1 he
  obtain ⟨us0, hus0, rfl⟩ := Option.map_eq_some_iff.1 hus
  obtain ⟨hu, hr⟩ := List.mem_filter.1 hu
  obtain ⟨hu', hr'⟩ := List.mem_filter.1 hu'
  simp only [List.contains_eq_mem, Bool.not_eq_true', decide_eq_false_iff_not] at hr hr'
  refine h e0 he0 us0 hus0 u hu u' hu' ?_
  have hk : (c.reduced rem f).decls.clocks.lookup u.var = (c.reduced rem f).decls.clocks.lookup u'.var := hk
  rw [clockIndex_reduced hn hr, clockIndex_reduced hn hr'] at hk
  show c.decls.clocks.lookup u.var = c.decls.clocks.lookup u'.var
  have key : ∀ {x : String} {i : Nat}, x ∉ c.decls.namesOf rem → c.decls.clocks.lookup x = some i → ρ i = some (f i) := by
    intro x i hx hl
    have := hρ _ (lookup_mem hl)
    rwa [if_neg fun hm => hx (Decls.mem_namesOf.2 ⟨i, hm, lookup_mem hl⟩)] at this
  cases h1 : c.decls.clocks.lookup u.var with
  | none =>
    cases h2 : c.decls.clocks.lookup u'.var with
    | none => rfl
    | some i => rw [h1, h2] at hk; cases hk
  | some i =>
    cases h2 : c.decls.clocks.lookup u'.var with
    | none => rw [h1, h2] at hk; cases hk
    | some j =>
      rw [h1, h2] at hk
      have hk : f i = f j := by simpa using hk
      have a := key hr h1
      have b := key hr' h2
      rw [← hk] at b
      rw [hi i j _ a b]

end

/-! ## Systems built from components -/

namespace Sys

/-- A system built from components with the property `P`, which share no clocks. -/
inductive Built (P : CompComp F → Prop) : Sys F → Prop
  | comp {x : CompComp F} (h : P x) : Built P (.comp x)
  | composition {l r s : Sys F} (hl : Built P l) (hr : Built P r) (h : newComposition l r = .ok s)
      (hd : l.DisjointClocks r) : Built P s
  | conjunction {l r s : Sys F} (hl : Built P l) (hr : Built P r) (h : newConjunctionUnchecked l r = .ok s)
      (hd : l.DisjointClocks r) : Built P s
  | quotient {t s q : Sys F} {clock : Nat} (ht : Built P t) (hs : Built P s) (h0 : 0 < clock) (hn : clock < dim F)
      (h : newQuotientUnchecked t s clock = .ok q) (hd : t.DisjointClocks s)
      (pt : ∀ l, t.IsLoc l → PastClosed l) (ps : ∀ l, s.IsLoc l → PastClosed l)
      (hf : ∀ a ∈ q.inputs, a ∉ t.inputs → a ∉ s.outputs → a ∉ s.inputs) : Built P q

theorem Built.past {P : CompComp F → Prop} (hP : ∀ x, P x → ∀ l, (Sys.comp x).IsLoc l → PastClosed l) {s : Sys F}
    (h : s.Built P) : ∀ l, s.IsLoc l → PastClosed l := by
  induction h with
  | comp h => exact hP _ h
  | composition _ _ h _ ihl ihr =>
    obtain ⟨_, rfl⟩ := newComposition_eq h
    rintro x ⟨a, b, ha, hb, hx⟩ v d hv hd hm
    rw [mem_compose_inv hx] at *
    exact ⟨ihl a ha v d hv hd hm.1, ihr b hb v d hv hd hm.2⟩
  | conjunction _ _ h _ ihl ihr =>
    obtain ⟨_, _, rfl⟩ := newConjunction_eq h
    rintro x ⟨a, b, ha, hb, hx⟩ v d hv hd hm
    rw [mem_compose_inv hx] at *
    exact ⟨ihl a ha v d hv hd hm.1, ihr b hb v d hv hd hm.2⟩
  | quotient _ _ h0 hn h _ _ _ _ _ _ =>
    obtain ⟨_, rfl⟩ := newQuotient_eq h
    rintro l (⟨lt, ls, _, _, rfl⟩ | rfl | rfl)
    · intro v d _ _ _ i hi; cases hi
    · intro v d _ _ _ i hi; cases hi
    · exact pastClosed_errorLoc h0 hn

theorem freshInput_form (l : List String) : ∀ n i, ∃ k : Nat, freshInput l n i = s!"quotient_new_input{k}"
  | 0, i => ⟨i, rfl⟩
  | n + 1, i => by
    unfold freshInput
    split
    · exact freshInput_form l n (i + 1)
    · exact ⟨i, rfl⟩

end Sys

/-- The quotients of the system are in a line: no two of them are in different operands of an operator, and none is in
the second operand of another one.  (They all have the same clock, and the input a quotient adds has the same name as that
of a quotient in its second operand.)  No component in the second operand of a quotient has an input with a name that is
used for such an input. -/
def Recipe.Lined : Recipe → Prop
  | .composition l r => l.Lined ∧ r.Lined ∧ (l.quotientClocks = [] ∨ r.quotientClocks = [])
  | .conjunction l r => l.Lined ∧ r.Lined ∧ (l.quotientClocks = [] ∨ r.quotientClocks = [])
  | .quotient l r _ => l.Lined ∧ r.Lined ∧ r.quotientClocks = [] ∧
      ∀ c ∈ r.components, ∀ e ∈ c.edges, e.sync = .input → ∀ n : Nat, e.action ≠ s!"quotient_new_input{n}"
  | .component _ _ => True

/-- Without quotients there is nothing to ask for. -/
theorem Recipe.lined : ∀ {r : Recipe}, r.quotientClocks = [] → r.Lined
  | .composition _ _, h => by
    obtain ⟨q1, q2⟩ := List.append_eq_nil_iff.1 h
    exact ⟨lined q1, lined q2, .inl q1⟩
  | .conjunction _ _, h => by
    obtain ⟨q1, q2⟩ := List.append_eq_nil_iff.1 h
    exact ⟨lined q1, lined q2, .inl q1⟩
  | .quotient _ _ _, h => by cases (List.append_eq_nil_iff.1 h).2
  | .component _ _, _ => trivial

/-- The inputs of a system without quotients are inputs of its components. -/
theorem Recipe.compile_inputs : ∀ {r : Recipe} {env : CompileEnv F} {i j : Nat} {s : Sys F}, r.quotientClocks = [] →
    r.compile env i = .ok (s, j) → ∀ a ∈ s.inputs, ∃ c ∈ r.components, a ∈ c.specificActions .input
  | .composition l r, env, i, j, s, hq, hs, a, ha => by
    obtain ⟨q1, q2⟩ := List.append_eq_nil_iff.1 hq
    obtain ⟨⟨sl, k⟩, h1, hs⟩ := bind_ok hs
    obtain ⟨⟨sr, k'⟩, h2, hs⟩ := bind_ok hs
    obtain ⟨s0, h3, hs⟩ := bind_ok hs
    cases hs
    obtain ⟨_, rfl⟩ := Sys.newComposition_eq h3
    have ha : a ∈ mkSet _ := ha
    rw [mem_mkSet, List.mem_append] at ha
    rcases ha with ha | ha
    · obtain ⟨c, hc, h⟩ := compile_inputs q1 h1 a (List.mem_filter.1 ha).1
      exact ⟨c, List.mem_append_left _ hc, h⟩
    · obtain ⟨c, hc, h⟩ := compile_inputs q2 h2 a (List.mem_filter.1 ha).1
      exact ⟨c, List.mem_append_right _ hc, h⟩
  | .conjunction l r, env, i, j, s, hq, hs, a, ha => by
    obtain ⟨q1, q2⟩ := List.append_eq_nil_iff.1 hq
    obtain ⟨⟨sl, k⟩, h1, hs⟩ := bind_ok hs
    obtain ⟨⟨sr, k'⟩, h2, hs⟩ := bind_ok hs
    obtain ⟨s0, h3, hs⟩ := bind_ok hs
    cases hs
    obtain ⟨_, _, rfl⟩ := Sys.newConjunction_eq (newConjunction_unchecked h3)
    have ha : a ∈ setInter _ _ := ha
    rw [mem_setInter] at ha
    obtain ⟨c, hc, h⟩ := compile_inputs q1 h1 a ha.1
    exact ⟨c, List.mem_append_left _ hc, h⟩
  | .quotient _ _ _, _, _, _, _, hq, _, _, _ => by cases (List.append_eq_nil_iff.1 hq).2
  | .component c n, env, i, j, s, hq, hs, a, ha => by
    obtain ⟨x, h1, hs⟩ := bind_ok hs
    cases hs
    refine ⟨c, List.mem_singleton.2 rfl, ?_⟩
    unfold CompComp.compile CompComp.compileWith at h1
    split at h1
    · cases h1
    obtain ⟨locs, _, h1⟩ := bind_ok h1
    obtain ⟨edges, _, h1⟩ := bind_ok h1
    cases h1
    exact ha

theorem Recipe.Fit.clocks {r : Recipe} {rem : List Nat} {f h : Nat → Nat} {ρ : ClockMap}
    (hr : r.Fit (dim F) rem f h ρ) {env' : CompileEnv G} {i' j' : Nat} {s' : Sys G}
    (hs' : (r.reshape (Component.reduced rem f) h).compile env' i' = .ok (s', j')) {x : Nat} (hx : x ∈ s'.clocks) :
    ∃ i, r.UsesClock i ∧ ρ i = some x := by
  rcases Recipe.compile_clocks hs' x hx with hm | hm
  · obtain ⟨c', hc', hm⟩ := List.mem_flatMap.1 hm
    rw [Recipe.reshape_components] at hc'
    obtain ⟨c, hc, rfl⟩ := List.mem_map.1 hc'
    obtain ⟨p, hp, rfl⟩ := List.mem_map.1 hm
    obtain ⟨x, hx', rfl⟩ := List.mem_map.1 hp
    rw [without_clocks (hr.comps c hc).1.names] at hx'
    obtain ⟨hx, hrem⟩ := List.mem_filter.1 hx'
    have hi : x.2 ∈ r.clockIndices := List.mem_flatMap.2 ⟨c, hc, List.mem_map.2 ⟨x, hx, rfl⟩⟩
    refine ⟨x.2, .inl hi, ?_⟩
    rw [(hr.comps c hc).2.1 x hx, if_neg (by simpa using hrem)]
  · rw [Recipe.reshape_quotientClocks] at hm
    obtain ⟨q, hq, rfl⟩ := List.mem_map.1 hm
    exact ⟨q, .inr hq, hr.quots q hq⟩

/-- The operands of a reduced recipe share no clocks. -/
theorem Recipe.Fit.apart {l r : Recipe} {rem : List Nat} {f h : Nat → Nat} {ρ : ClockMap} {q : Nat} (hi : ρ.Inj)
    (tl : l.SteadyFor q) (tr : r.SteadyFor q) (hd : ∀ i ∈ l.clockIndices, i ∉ r.clockIndices)
    (hq : l.quotientClocks = [] ∨ r.quotientClocks = []) (fl : l.Fit (dim F) rem f h ρ) (fr : r.Fit (dim F) rem f h ρ)
    {env env' : CompileEnv G} {i i' j j' : Nat} {s s' : Sys G}
    (hs : (l.reshape (Component.reduced rem f) h).compile env i = .ok (s, j))
    (hs' : (r.reshape (Component.reduced rem f) h).compile env' i' = .ok (s', j')) : s.DisjointClocks s' := by
  intro x hx hx'
  obtain ⟨a, ha, ea⟩ := fl.clocks hs hx
  obtain ⟨b, hb, eb⟩ := fr.clocks hs' hx'
  cases hi a b x ea eb
  rcases ha with ha | ha <;> rcases hb with hb | hb
  · exact hd a ha hb
  · cases tr.quot a hb
    exact tl.fresh ha
  · cases tl.quot a ha
    exact tr.fresh hb
  · rcases hq with hq | hq
    · rw [hq] at ha; cases ha
    · rw [hq] at hb; cases hb

/-- The system of a reduced recipe whose quotients are in a line. -/
theorem Recipe.compile_built {rem : List Nat} {f h : Nat → Nat} {ρ : ClockMap} {q : Nat} (hi : ρ.Inj)
    {P : CompComp G → Prop} :
    ∀ {r : Recipe} {env : CompileEnv F} {env' : CompileEnv G} {i j i' j' : Nat} {s : Sys F} {s' : Sys G}, env.Perm →
      env'.Perm → r.Fit (dim F) rem f h ρ → r.Lined → r.SteadyFor q →
      (∀ c ∈ r.quotientClocks, 0 < h c ∧ h c < dim G) →
      (r.quotientClocks ≠ [] → ∀ x, P x → ∀ l, (Sys.comp x).IsLoc l → PastClosed l) →
      (∀ c ∈ r.components, ∀ order order' id id' x x', (∀ l, (order l).Perm l) → (∀ l, (order' l).Perm l) →
        CompComp.compile (F := F) order c id = .ok x → CompComp.compile (F := G) order' (c.reduced rem f) id' = .ok x' → P x') →
      r.compile env i = .ok (s, j) → (r.reshape (Component.reduced rem f) h).compile env' i' = .ok (s', j') → s'.Built P
  | .composition l r, env, env', i, j, i', j', s, s', he, he', hr, hq, hst, hG, hpast, hP, hs, hs' => by
    have hks : ∀ c, c ∈ l.quotientClocks ∨ c ∈ r.quotientClocks → c ∈ (Recipe.composition l r).quotientClocks :=
      fun c hc => List.mem_append.2 hc
    obtain ⟨f1, f2⟩ := Recipe.Fit.split (l := l) (r := r) (x := .composition l r) rfl hks hr
    obtain ⟨⟨sl, k⟩, h1, hs⟩ := bind_ok hs
    obtain ⟨⟨sr, k'⟩, h2, hs⟩ := bind_ok hs
    obtain ⟨⟨sl', k1⟩, h1', hs'⟩ := bind_ok hs'
    obtain ⟨⟨sr', k1'⟩, h2', hs'⟩ := bind_ok hs'
    obtain ⟨s0', h3', hs'⟩ := bind_ok hs'
    cases hs'
    obtain ⟨q1, q2, q3⟩ := hq
    obtain ⟨t1, t2, t3⟩ := Recipe.SteadyFor.split (l := l) (r := r) rfl
      (show (Recipe.composition l r).clockIndices = _ from List.flatMap_append) hks hst.agree hst.nodup hst.fresh hst.quot
    exact .composition (compile_built hi (env := env.sub false) (env' := env'.sub false) he he' f1 q1 t1
      (fun c hc => hG c (hks c (.inl hc))) (fun hc => hpast fun e => hc (List.append_eq_nil_iff.1 e).1)
      (fun c hc => hP c (List.mem_append_left _ hc)) h1 h1') (compile_built hi (env := env.sub true)
      (env' := env'.sub true) he he' f2 q2 t2 (fun c hc => hG c (hks c (.inr hc)))
      (fun hc => hpast fun e => hc (List.append_eq_nil_iff.1 e).2)
      (fun c hc => hP c (List.mem_append_right _ hc)) h2 h2') h3' (f1.apart hi t1 t2 t3 q3 f2 h1' h2')
  | .conjunction l r, env, env', i, j, i', j', s, s', he, he', hr, hq, hst, hG, hpast, hP, hs, hs' => by
    have hks : ∀ c, c ∈ l.quotientClocks ∨ c ∈ r.quotientClocks → c ∈ (Recipe.conjunction l r).quotientClocks :=
      fun c hc => List.mem_append.2 hc
    obtain ⟨f1, f2⟩ := Recipe.Fit.split (l := l) (r := r) (x := .conjunction l r) rfl hks hr
    obtain ⟨⟨sl, k⟩, h1, hs⟩ := bind_ok hs
    obtain ⟨⟨sr, k'⟩, h2, hs⟩ := bind_ok hs
    obtain ⟨⟨sl', k1⟩, h1', hs'⟩ := bind_ok hs'
    obtain ⟨⟨sr', k1'⟩, h2', hs'⟩ := bind_ok hs'
    obtain ⟨s0', h3', hs'⟩ := bind_ok hs'
    cases hs'
    obtain ⟨q1, q2, q3⟩ := hq
    obtain ⟨t1, t2, t3⟩ := Recipe.SteadyFor.split (l := l) (r := r) rfl
      (show (Recipe.conjunction l r).clockIndices = _ from List.flatMap_append) hks hst.agree hst.nodup hst.fresh hst.quot
    exact .conjunction (compile_built hi (env := env.sub false) (env' := env'.sub false) he he' f1 q1 t1
      (fun c hc => hG c (hks c (.inl hc))) (fun hc => hpast fun e => hc (List.append_eq_nil_iff.1 e).1)
      (fun c hc => hP c (List.mem_append_left _ hc)) h1 h1') (compile_built hi (env := env.sub true)
      (env' := env'.sub true) he he' f2 q2 t2 (fun c hc => hG c (hks c (.inr hc)))
      (fun hc => hpast fun e => hc (List.append_eq_nil_iff.1 e).2)
      (fun c hc => hP c (List.mem_append_right _ hc)) h2 h2') (newConjunction_unchecked h3') (f1.apart hi t1 t2 t3 q3 f2 h1' h2')
  | .quotient l r qc, env, env', i, j, i', j', s, s', he, he', hr, hq, hst, hG, hpast, hP, hs, hs' => by
    have hks : ∀ c, c ∈ l.quotientClocks ∨ c ∈ r.quotientClocks → c ∈ (Recipe.quotient l r qc).quotientClocks :=
      fun c hc => List.mem_append_left _ (List.mem_append.2 hc)
    obtain ⟨f1, f2⟩ := Recipe.Fit.split (l := l) (r := r) (x := .quotient l r qc) rfl hks hr
    obtain ⟨⟨sl, k⟩, h1, hs⟩ := bind_ok hs
    obtain ⟨⟨sr, k'⟩, h2, hs⟩ := bind_ok hs
    obtain ⟨⟨sl', k1⟩, h1', hs'⟩ := bind_ok hs'
    obtain ⟨⟨sr', k1'⟩, h2', hs'⟩ := bind_ok hs'
    obtain ⟨s0', h3', hs'⟩ := bind_ok hs'
    cases hs'
    obtain ⟨q1, q2, q3, q4⟩ := hq
    have hpast := hpast (by simp [Recipe.quotientClocks])
    obtain ⟨t1, t2, t3⟩ := Recipe.SteadyFor.split (l := l) (r := r) rfl
      (show (Recipe.quotient l r qc).clockIndices = _ from List.flatMap_append) hks hst.agree hst.nodup hst.fresh hst.quot
    have b1 := compile_built hi (env := env.sub false) (env' := env'.sub false) he he' f1 q1 t1
      (fun c hc => hG c (hks c (.inl hc))) (fun _ => hpast) (fun c hc => hP c (List.mem_append_left _ hc)) h1 h1'
    have b2 := compile_built hi (env := env.sub true) (env' := env'.sub true) he he' f2 q2 t2
      (fun c hc => hG c (hks c (.inr hc))) (fun _ => hpast) (fun c hc => hP c (List.mem_append_right _ hc)) h2 h2'
    obtain ⟨g1, g2⟩ := hG qc (List.mem_append_right _ (List.mem_singleton.2 rfl))
    have hu := newQuotient_unchecked h3'
    refine .quotient b1 b2 g1 g2 hu (f1.apart hi t1 t2 t3 (.inr q3) f2 h1' h2') (b1.past hpast) (b2.past hpast) ?_
    obtain ⟨_, rfl⟩ := Sys.newQuotient_eq hu
    intro a ha ht ho hin
    have ha : a ∈ setUnion _ _ := ha
    rw [mem_setUnion, mem_setUnion, List.mem_singleton] at ha
    rcases ha with (ha | ha) | rfl
    · exact ht ha
    · exact ho ha
    · obtain ⟨c', hc', hin⟩ := Recipe.compile_inputs (by rw [Recipe.reshape_quotientClocks, q3]; rfl) h2' _ hin
      rw [Recipe.reshape_components] at hc'
      obtain ⟨c, hc, rfl⟩ := List.mem_map.1 hc'
      rw [specificActions_reduced] at hin
      unfold Component.specificActions at hin
      rw [mem_mkSet] at hin
      obtain ⟨e, he, hea⟩ := List.mem_map.1 hin
      obtain ⟨he, hsy⟩ := List.mem_filter.1 he
      obtain ⟨n, hn⟩ := Sys.freshInput_form (setUnion sl'.inputs sr'.outputs) (setUnion sl'.inputs sr'.outputs).length 0
      rw [hn] at hea
      refine q4 c hc e he ?_ n hea
      simpa using (Bool.and_eq_true_iff.1 hsy).1
  | .component c n, env, env', i, j, i', j', s, s', he, he', hr, hq, hst, hG, hpast, hP, hs, hs' => by
    obtain ⟨x, h1, hs⟩ := bind_ok hs
    cases hs
    obtain ⟨x', h1', hs'⟩ := bind_ok hs'
    cases hs'
    exact .comp (hP c (List.mem_singleton.2 rfl) _ _ _ _ x x' (he i) (he' i') h1 h1')

/-- Every location of the reduced component is a location of the component. -/
theorem loc_reduced {c : Component} {rem : List Nat} {f : Nat → Nat} {ρ : ClockMap} (hc : c.Reducible (dim F))
    (hρ : ρ.On rem f c) (hf : ρ.Fits (dim F) (dim G)) (hh : c.HarmlessFor rem)
    {order : List (LocId × LocTree F) → List (LocId × LocTree F)} (ho : ∀ l, (order l).Perm l)
    {order' : List (LocId × LocTree G) → List (LocId × LocTree G)} (ho' : ∀ l, (order' l).Perm l) {id id' : Nat}
    {x : CompComp F} {x' : CompComp G} (hx : CompComp.compile order c id = .ok x)
    (hx' : CompComp.compile order' (c.reduced rem f) id' = .ok x') {m : LocTree G} (hm : (Sys.comp x').IsLoc m) :
    ∃ l, (Sys.comp x).IsLoc l ∧ LocAlike ρ l m := by
  obtain ⟨_, _, hlocs, _⟩ := compileWith_content ho' hx'
  obtain ⟨p, hp, rfl⟩ := hm
  obtain ⟨_, loc', hloc', hs'⟩ := hlocs p hp
  obtain ⟨loc, hloc, rfl⟩ := List.mem_map.1 hloc'
  obtain ⟨l, hl, hs⟩ := compiled_loc ho hx hc.clear.ids hloc
  exact ⟨l, hl, simple_alike hc hρ hf hh hloc hs hs'⟩

/-- Every invariant of the component is a deadline: it held earlier if it holds now. -/
def Component.HasDeadlines (F : Type) [ZoneLib F] (c : Component) : Prop :=
  ∃ order id x, (∀ l, (order l).Perm l) ∧ CompComp.compile (F := F) order c id = .ok x ∧
    ∀ l, (Sys.comp x).IsLoc l → PastClosed l

/-- The quotients are in a line, and their operands have invariants that are deadlines (for simplicity, all components have,
if there is a quotient at all). -/
structure Recipe.GoodQuotients (F : Type) [ZoneLib F] (r : Recipe) : Prop where
  lined : r.Lined
  deadlines : r.quotientClocks ≠ [] → ∀ c ∈ r.components, c.HasDeadlines F

theorem Recipe.goodQuotients {r : Recipe} (h : r.quotientClocks = []) : r.GoodQuotients F :=
  ⟨Recipe.lined h, fun hn => (hn h).elim⟩

namespace Recipe.ReducedTo
variable {r r' : Recipe} {ρ : ClockMap}

theorem fit (h : r.ReducedTo r' (dim F) (dim G) ρ) : ∃ rem g k, r' = r.reshape (Component.reduced rem g) k ∧
    r.Fit (dim F) rem g k ρ := by
  obtain ⟨rem, g, k, q', rfl, h', rfl⟩ := h.form
  exact ⟨rem, g, k, rfl, h'.ok, fun c hc => ⟨(h'.comps c hc).1, clockMap_on hc, (h'.comps c hc).2⟩,
    fun q hq => h'.quot hq, fun _ => ⟨h.inj, h.steady⟩⟩

/-- The system of a reduced recipe is built from the components in the same way. -/
theorem built (h : r.ReducedTo r' (dim F) (dim G) ρ) (hq : r.GoodQuotients F) {env : CompileEnv F}
    {env' : CompileEnv G} (he : env.Perm) (he' : env'.Perm) {i j i' j' : Nat} {s : Sys F} {s' : Sys G}
    (hs : r.compile env i = .ok (s, j)) (hs' : r'.compile env' i' = .ok (s', j')) :
    s'.Built fun x' => ∃ c ∈ r.components, ∃ rem g, r'.Ok (dim G) ∧ c.reduced rem g ∈ r'.components ∧
      c.Reducible (dim F) ∧ ρ.On rem g c ∧ c.HarmlessFor rem ∧ c.UpdatesAgree ∧
      ∃ order order' id id' x, (∀ l, (order l).Perm l) ∧ (∀ l, (order' l).Perm l) ∧
        CompComp.compile (F := F) order c id = .ok x ∧ CompComp.compile order' (c.reduced rem g) id' = .ok x' := by
  obtain ⟨rem, g, k, e, hf⟩ := h.fit
  obtain ⟨q, hst⟩ := h.steady
  have hok := h.ok' (G := G)
  subst e
  refine Recipe.compile_built h.inj he he' hf hq.lined hst (fun c hc => ?_) (fun hne => ?_) ?_ hs hs'
  · refine hok.2 _ ?_
    rw [Recipe.reshape_quotientClocks]
    exact List.mem_map_of_mem hc
  · rintro x' ⟨c, hc, rem, g, _, _, hred, hon, hh, _, _, order', _, id', _, _, ho', _, hx'⟩ m hm
    obtain ⟨order, id, x, ho, hx, hpast⟩ := hq.deadlines hne c hc
    obtain ⟨l, hl, hlm⟩ := loc_reduced hred hon h.fits hh ho ho' hx hx' hm
    exact hlm.pastClosed h.fits (hpast l hl)
  intro c hc order order' id id' x x' ho ho' hx hx'
  refine ⟨c, hc, rem, g, hok, ?_, (hf.comps c hc).1, (hf.comps c hc).2.1, (hf.comps c hc).2.2, hst.agree c hc, order, order',
    id, id', x, ho, ho', hx, hx'⟩
  rw [Recipe.reshape_components]
  exact List.mem_map_of_mem hc

end Recipe.ReducedTo

theorem Sys.Built.plainProduct {P : CompComp F → Prop} (hP : ∀ x, P x → (Sys.comp x).PlainProduct) {s : Sys F}
    (h : s.Built P) : s.PlainProduct := by
  induction h with
  | comp h => exact hP _ h
  | composition _ _ h1 h2 ihl ihr => exact .composition ihl ihr h1 h2
  | conjunction _ _ h1 h2 ihl ihr => exact .conjunction ihl ihr h1 h2
  | quotient _ _ h0 hn h hd pt ps hf iht ihs => exact .quotient iht ihs h0 hn h hd pt ps hf

theorem Sys.Built.ordinary {P : CompComp F → Prop} (hP : ∀ x, P x → (Sys.comp x).Ordinary) {s : Sys F}
    (h : s.Built P) : s.Ordinary := by
  induction h with
  | comp h => exact hP _ h
  | composition _ _ h1 h2 ihl ihr => exact .composition ihl ihr h1 h2
  | conjunction _ _ h1 h2 ihl ihr => exact .conjunction ihl ihr h1 h2
  | quotient _ _ h0 hn h hd _ _ hf iht ihs => exact .quotient iht ihs h0 hn h hd hf

namespace Recipe.ReducedTo
variable {r r' : Recipe} {ρ : ClockMap}

/-- The system of a reduced recipe is one for which the determinism check is right. -/
theorem plainProduct (h : r.ReducedTo r' (dim F) (dim G) ρ) (hq : r.GoodQuotients F) {env : CompileEnv F}
    {env' : CompileEnv G} (he : env.Perm) (he' : env'.Perm) {i j i' j' : Nat} {s : Sys F} {s' : Sys G}
    (hs : r.compile env i = .ok (s, j)) (hs' : r'.compile env' i' = .ok (s', j')) : s'.PlainProduct := by
  refine (h.built hq he he' hs hs').plainProduct ?_
  rintro x' ⟨c, hc, rem, g, hok, hm, hred, hon, _, ha, order, order', id, id', x, ho, ho', hx, hx'⟩
  exact .comp (hok.1 _ hm) ho' hx' (compile_edgesAgree (hok.1 _ hm) (ha.reduced hred.names hon h.inj) hx')

end Recipe.ReducedTo

/-! ## Plain components -/

theorem hasVar_of_comparison {g : BoolE} {p : Arith × Arith} (h : p ∈ g.comparisons) {n : String}
    (hn : p.1.hasVar n = true ∨ p.2.hasVar n = true) : g.hasVar n = true := by
  induction g with
  | and l r ihl ihr | or l r ihl ihr =>
    rcases List.mem_append.1 h with h | h
    · simp [BoolE.hasVar, ihl h]
    · simp [BoolE.hasVar, ihr h]
  | bool => cases h
  | _ =>
    rw [BoolE.comparisons, List.mem_singleton] at h
    subst h
    simpa [BoolE.hasVar] using hn

theorem namesOnly_of_comparison {g : BoolE} {p : Arith × Arith} (h : p ∈ g.comparisons) (hn : g.NamesOnly) :
    p.1.NamesOnly ∧ p.2.NamesOnly := by
  induction g with
  | and l r ihl ihr | or l r ihl ihr =>
    rcases List.mem_append.1 h with h | h
    · exact ihl h hn.1
    · exact ihr h hn.2
  | bool => cases h
  | _ =>
    rw [BoolE.comparisons, List.mem_singleton] at h
    subst h
    exact hn

theorem BoolE.Plain.reduced {c : Component} {rem : List Nat} {f : Nat → Nat} (hn : (c.decls.clocks.map (·.1)).Nodup)
    {g : BoolE} (hg : g.NamesOnly) (h : g.Plain c.decls) :
    (g.strip (c.decls.namesOf rem)).Plain (c.reduced rem f).decls := by
  unfold BoolE.strip
  split
  · intro p hp
    cases hp
  · rename_i hany
    intro p hp
    have key : ∀ {e : Arith} {n : String} {i : Nat}, e.NamesOnly → (∀ n, e.hasVar n = true → g.hasVar n = true) →
        e.IsClock c.decls n i → e.IsClock (c.reduced rem f).decls n (f i) := by
      rintro e n i he hv ⟨_, rfl | ⟨rfl, hl⟩⟩
      · exact he.elim
      · have : n ∉ c.decls.namesOf rem := fun hm =>
          hany (List.any_eq_true.2 ⟨n, hm, hv n (by simp [Arith.hasVar])⟩)
        have e := clockIndex_reduced (f := f) hn this
        rw [hl] at e
        exact ⟨lookup_mem e, .inr ⟨rfl, e⟩⟩
    obtain ⟨n, i, k, h⟩ := h p hp
    obtain ⟨n1, n2⟩ := namesOnly_of_comparison hp hg
    rcases h with ⟨h1, h2⟩ | ⟨h1, h2⟩
    · exact ⟨n, f i, k, .inl ⟨key n1 (fun n hn => hasVar_of_comparison hp (.inl hn)) h1, h2⟩⟩
    · exact ⟨n, f i, k, .inr ⟨h1, key n2 (fun n hn => hasVar_of_comparison hp (.inr hn)) h2⟩⟩

theorem Component.Plain.reduced {c : Component} {rem : List Nat} {f : Nat → Nat} {n : Nat} (hc : c.Reducible n)
    (h : c.Plain) : (c.reduced rem f).Plain := by
  refine ⟨?_, ?_⟩
  · rintro g (⟨e, he, hg⟩ | ⟨l, hl, hg⟩)
    · obtain ⟨e0, he0, rfl⟩ := List.mem_map.1 he
      obtain ⟨g0, hg0, rfl⟩ := Option.map_eq_some_iff.1 hg
      exact (h.exprs g0 (.inl ⟨e0, he0, hg0⟩)).reduced hc.names (hc.byName.guards e0 he0 g0 hg0)
    · obtain ⟨l0, hl0, rfl⟩ := List.mem_map.1 hl
      obtain ⟨g0, hg0, rfl⟩ := Option.map_eq_some_iff.1 hg
      exact (h.exprs g0 (.inr ⟨l0, hl0, hg0⟩)).reduced hc.names (hc.byName.invs l0 hl0 g0 hg0)
  · intro l hl ht
    obtain ⟨l0, hl0, rfl⟩ := List.mem_map.1 hl
    obtain ⟨h1, h2⟩ := h.special l0 hl0 ht
    refine ⟨?_, fun e he => ?_⟩
    · show l0.invariant.map _ = none
      rw [h1]
      rfl
    · obtain ⟨e0, he0, rfl⟩ := List.mem_map.1 he
      exact h2 e0 he0

/-- The component only compares clocks with literals, its invariants hold until some time, and every transition that is
enabled leads to where the invariant holds. -/
structure Component.Tame (F : Type) [ZoneLib F] (c : Component) : Prop where
  plain : c.Plain
  compiled : ∃ order id x, (∀ l, (order l).Perm l) ∧ CompComp.compile (F := F) order c id = .ok x ∧
    (∀ l, (Sys.comp x).IsLoc l → PastClosed l) ∧ (Sys.comp x).ts.TargetsOpen

namespace Recipe.ReducedTo
variable {r r' : Recipe} {ρ : ClockMap}

/-- The system of a reduced recipe made of tame components is ordinary. -/
theorem ordinary (h : r.ReducedTo r' (dim F) (dim G) ρ) (hl : r.Lined)
    (ht : ∀ c ∈ r.components, c.Tame F) {env : CompileEnv F}
    {env' : CompileEnv G} (he : env.Perm) (he' : env'.Perm) {i j i' j' : Nat} {s : Sys F} {s' : Sys G}
    (hs : r.compile env i = .ok (s, j)) (hs' : r'.compile env' i' = .ok (s', j')) : s'.Ordinary := by
  have hq : r.GoodQuotients F := ⟨hl, fun _ c hc => by
    obtain ⟨order, id, x, ho, hx, hp, _⟩ := (ht c hc).compiled
    exact ⟨order, id, x, ho, hx, hp⟩⟩
  refine (h.built hq he he' hs hs').ordinary ?_
  rintro x' ⟨c, hc, rem, g, hok, hm, hred, hon, hh, ha, _, order', _, id', _, _, ho', _, hx'⟩
  have hok1 := hok.1 _ hm
  obtain ⟨order, id, x, ho, hx, hpast, hopen⟩ := (ht c hc).compiled
  refine .comp hok1 ((ht c hc).plain.reduced hred) ho' hx' (compile_edgesAgree hok1 (ha.reduced hred.names hon h.inj) hx')
    (fun m hm => ?_) ?_
  · obtain ⟨l, hl, hlm⟩ := loc_reduced hred hon h.fits hh ho ho' hx hx' hm
    exact hlm.pastClosed h.fits (hpast l hl)
  · have hal : Sys.Alike ρ (.comp x) (.comp x') := compAlike_reduced hred hon h.fits hh ho ho' hx hx'
    exact hal.targetsOpen (.comp hred.clear.ok ho hx) (.comp hok1 ho' hx') h.fits
      (fun _ _ _ t _ _ _ _ => h.inj.coherent t.updates) hopen

end Recipe.ReducedTo
end Reveaal
