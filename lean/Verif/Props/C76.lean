import Verif.Spec.Respond
import Verif.Props.C64Save
import Verif.Props.C72
import Verif.Props.C73
import Verif.Props.C75

/-!
# C76 Every answer is sent as what it is
-/

namespace Reveaal
open ZoneLib

section
variable {F : Type} [ZoneLib F]

/-! ## Refinement failures -/

theorem Sys.FairOrders.spec {s : Sys F} {ord : List Bool → Orders} (h : s.FairOrders ord) : s.ActOrders ord ∧
    (∀ q ∈ s.parts, ∀ i a, a ∈ (ord q.1).inputs i → a ∈ q.2.inputs) ∧
    (∀ q ∈ s.parts, ∀ i, ∀ a ∈ q.2.outputs, a ∈ (ord q.1).outputs i) := by
  have two : ∀ {l r : Sys F} {ord : List Bool → Orders} (_ : l.ActOrders (fun p => ord (false :: p)) ∧
        (∀ q ∈ l.parts, ∀ i a, a ∈ (ord (false :: q.1)).inputs i → a ∈ q.2.inputs) ∧
        (∀ q ∈ l.parts, ∀ i, ∀ a ∈ q.2.outputs, a ∈ (ord (false :: q.1)).outputs i))
      (_ : r.ActOrders (fun p => ord (true :: p)) ∧
        (∀ q ∈ r.parts, ∀ i a, a ∈ (ord (true :: q.1)).inputs i → a ∈ q.2.inputs) ∧
        (∀ q ∈ r.parts, ∀ i, ∀ a ∈ q.2.outputs, a ∈ (ord (true :: q.1)).outputs i)),
      (l.ActOrders (fun p => ord (false :: p)) ∧ r.ActOrders (fun p => ord (true :: p))) ∧
      (∀ q ∈ l.parts.map (fun p => (false :: p.1, p.2)) ++ r.parts.map (fun p => (true :: p.1, p.2)), ∀ i a,
        a ∈ (ord q.1).inputs i → a ∈ q.2.inputs) ∧
      (∀ q ∈ l.parts.map (fun p => (false :: p.1, p.2)) ++ r.parts.map (fun p => (true :: p.1, p.2)), ∀ i, ∀ a ∈ q.2.outputs,
        a ∈ (ord q.1).outputs i) := by
    rintro l r ord ⟨a1, a2, a3⟩ ⟨b1, b2, b3⟩
    refine ⟨⟨a1, b1⟩, ?_, ?_⟩
    all_goals
      intro q hq
      rcases List.mem_append.1 hq with hq | hq <;> obtain ⟨q, hm, rfl⟩ := List.mem_map.1 hq
    · exact a2 q hm
    · exact b2 q hm
    · exact a3 q hm
    · exact b3 q hm
  induction s generalizing ord with
  | comp c =>
    refine ⟨fun k => (h k).1, ?_, ?_⟩
    · intro q hq i a ha
      obtain rfl := List.mem_singleton.1 hq
      exact (h i).2.1.mem_iff.1 ha
    · intro q hq i a ha
      obtain rfl := List.mem_singleton.1 hq
      exact (h i).2.2.mem_iff.2 ha
  | composition l r _ _ _ _ _ ihl ihr => exact two (ihl h.1) (ihr h.2)
  | conjunction l r _ _ ihl ihr => exact two (ihl h.1) (ihr h.2)
  | quotient l r _ _ _ _ ihl ihr => exact two (ihl h.1) (ihr h.2)

theorem explore_kind {ts1 ts2 : TS F} {outs ins : List String} {fuel : Nat} {f : RefFailure F}
    (h : Refine.explore ts1 ts2 outs ins fuel = .ok (some f)) :
    (f = .emptyChild true ∧ ts1.initialLoc = .ok none ∧ ∃ m, ts2.initialLoc = .ok (some m)) ∨
    (f = .emptyChild false ∧ (∃ m, ts1.initialLoc = .ok (some m)) ∧ ts2.initialLoc = .ok none) ∨
    (f = .emptyInitial ∧ ∃ m m', ts1.initialLoc = .ok (some m) ∧ ts2.initialLoc = .ok (some m') ∧
      isEmpty (m'.applyInvariants (m.applyInvariants (init : F))) = true) ∨
    ∃ a p, f = .cannotMatch a p ∨ f = .cutsDelays a p := by
  unfold Refine.explore at h
  obtain ⟨o, h1, h⟩ := bind_ok h
  cases o with
  | none =>
    obtain ⟨o, h2, h⟩ := bind_ok h
    cases o with
    | none => cases h
    | some m => cases h; exact .inl ⟨rfl, h1, m, h2⟩
  | some l =>
    obtain ⟨o, h2, h⟩ := bind_ok h
    cases o with
    | none => cases h; exact .inr (.inl ⟨rfl, ⟨l, h1⟩, h2⟩)
    | some m =>
      dsimp only at h
      split at h
      · rename_i he
        cases h
        exact .inr (.inr (.inl ⟨rfl, l, m, h1, h2, he⟩))
      · obtain ⟨p, _, h⟩ := bind_ok h
        obtain ⟨⟨o, _⟩, h3, h⟩ := bind_ok h
        cases h
        refine .inr (.inr (.inr ?_))
        obtain ⟨p, _, h4⟩ := Refine.mainLoop_fails (G := fun _ => True) (fun _ _ _ _ => trivial) fuel (fun _ _ => trivial) h3
        rcases h4 with ⟨a, _, _, _, _, _, h5⟩ | ⟨a, _, _, _, _, _, h5⟩
        all_goals exact ⟨a, p, h5.imp And.left And.left⟩

/-- **C76 (refinement).** If the refinement check gives an answer, it can be reported and sent.  The report of a failure has
the kind of the failure and tells what it is (`RefinementReport.Told`), and the message says the same.
Missing from the full property: left sides without actions, for which a crash is possible (`C73_violated_empty`), nested
quotients with clashing names of inputs (`C08_violated_nested_quotient`). -/
theorem C76_refinement_partial {l r : Recipe} {env env' : CompileEnv F} {k j : Nat} {s t : Sys F} (he : env.Perm)
    (he' : env'.Perm) (hok : l.Ok (dim F)) (hok' : r.Ok (dim F)) (hl : l.ClockTables) (hr : r.ClockTables)
    (hs : l.compile env 0 = .ok (s, k)) (ht : r.compile env' k = .ok (t, j)) (hdim : dim F ≤ 2 ^ 32)
    {ord ord' : List (String × Nat) → List (String × Nat)} (ho : ∀ l, (ord l).Perm l) (ho' : ∀ l, (ord' l).Perm l)
    {checks checks' : List Bool → Orders} (hc : s.FairOrders checks) (hc' : t.FairOrders checks') (hn : s.NewInputsUnused)
    (hn' : t.NewInputsUnused) (hne : s.inputs ≠ [] ∨ s.outputs ≠ []) (acts : List String → List String)
    {outs ins : List String} {fuel : Nat} {o : Option (RefFailure F)}
    (h : checkRefinement s t checks checks' outs ins fuel = .ok o) :
    ∃ y, refinementReport ord ord' s t checks checks' outs ins fuel = .ok y ∧ (o = none → y = none) ∧
      ∀ f, o = some f → ∃ x m, y = some x ∧ x.Told l r s t f ∧ x.toProto acts = .ok m ∧ m.Says acts x := by
  have hk := components_length he hs
  have h0 := h
  have hin : ∀ n c, l.components[n]? = some c → (l.components ++ r.components)[0 + n]? = some c := by
    intro n c hm
    rw [Nat.zero_add, List.getElem?_append_left (List.getElem?_eq_some_iff.1 hm).1]
    exact hm
  have hin' : ∀ n c, r.components[n]? = some c → (l.components ++ r.components)[k + n]? = some c := by
    intro n c hm
    rw [hk, Nat.zero_add, List.getElem?_append_right (Nat.le_add_right _ _), Nat.add_sub_cancel_left]
    exact hm
  unfold checkRefinement at h
  unfold refinementReport
  rw [C72_consistency_verdict] at h
  cases e1 : s.precheckFailure checks fuel with
  | error e => rw [e1] at h; cases h
  | ok o1 =>
  rw [e1] at h
  rw [ok_bind]
  cases o1 with
  | some g =>
    obtain ⟨p, g⟩ := g
    cases h
    obtain ⟨a1, a2, a3⟩ := hc.spec
    obtain ⟨x, m, n, c, h1, h2, ⟨h3, h4⟩, h5⟩ := cons_reported he hok hl hs hdim hin ord ho checks a1 a2 a3 fuel p g e1
    rw [Nat.zero_add] at h4 h5
    dsimp only
    rw [h1, ok_bind]
    refine ⟨_, rfl, (by intro h; cases h), ?_⟩
    rintro f hf
    cases hf
    exact ⟨_, _, rfl, .left h3 h4 h5, by rw [RefinementReport.toProto, h2]; rfl, .left h2⟩
  | none =>
  dsimp only
  have h : (do
      match ← t.precheck checks' fuel with
      | some f => .ok (some (.precheck false f))
      | none =>
        match Refine.checkAlphabets s.ts t.ts with
        | some f => .ok (some f)
        | none => Refine.explore s.ts t.ts outs ins fuel : Res (Option (RefFailure F))) = .ok o := h
  rw [C72_consistency_verdict] at h
  cases e2 : t.precheckFailure checks' fuel with
  | error e => rw [e2] at h; cases h
  | ok o2 =>
  rw [e2] at h
  rw [ok_bind]
  cases o2 with
  | some g =>
    obtain ⟨p, g⟩ := g
    cases h
    obtain ⟨a1, a2, a3⟩ := hc'.spec
    obtain ⟨x, m, n, c, h1, h2, ⟨h3, h4⟩, h5⟩ := cons_reported he' hok' hr ht hdim hin' ord' ho' checks' a1 a2 a3 fuel p g e2
    rw [hk, Nat.zero_add] at h4 h5
    dsimp only
    rw [h1, ok_bind]
    refine ⟨_, rfl, (by intro h; cases h), ?_⟩
    rintro f hf
    cases hf
    exact ⟨_, _, rfl, .right h3 h4 h5, by rw [RefinementReport.toProto, h2]; rfl, .left h2⟩
  | none =>
  dsimp only
  have h : (match Refine.checkAlphabets s.ts t.ts with
        | some f => .ok (some f)
        | none => Refine.explore s.ts t.ts outs ins fuel : Res (Option (RefFailure F))) = .ok o := h
  obtain ⟨c1, c2⟩ := C73_refinement_partial s t (Recipe.compile_accepted he hok hs) (Recipe.compile_accepted he' hok' ht)
    hn hn' hne
  cases e3 : Refine.checkAlphabets s.ts t.ts with
  | some g =>
    rw [e3] at h
    cases h
    cases e4 : s.refinementFailure t with
    | none => rw [c1.2 e4] at e3; cases e3
    | some y =>
      obtain ⟨x, rfl, hx⟩ := c2 y e4
      refine ⟨some (.actionMismatch x (refinementName s t)), rfl, (by intro h; cases h), ?_⟩
      rintro f hf
      cases hf
      refine ⟨_, _, rfl, .actions ?_ hx, rfl, .actions⟩
      unfold Refine.checkAlphabets at e3
      split at e3
      · cases e3; exact .inl ⟨_, rfl⟩
      split at e3
      · cases e3; exact .inl ⟨_, rfl⟩
      split at e3
      · cases e3; exact .inr ⟨_, rfl⟩
      split at e3
      · cases e3; exact .inr ⟨_, rfl⟩
      · cases e3
  | none =>
    rw [e3] at h
    rw [c1.1 e3]
    dsimp only at h ⊢
    rw [h, ok_bind]
    cases o with
    | none => exact ⟨none, rfl, fun _ => rfl, fun f hf => by cases hf⟩
    | some f =>
      dsimp only
      have key : ∃ x m, f.describe ord ord' s t = .ok x ∧ x.Told l r s t f ∧ x.toProto acts = .ok m ∧ m.Says acts x := by
        rcases explore_kind h with ⟨rfl, h1, m, h2⟩ | ⟨rfl, ⟨m, h1⟩, h2⟩ | ⟨rfl, m, m', h1, h2, h3⟩ | ⟨a, p, hf⟩
        · exact ⟨_, _, rfl, .emptyLeft h1 h2, rfl, .empty⟩
        · exact ⟨_, _, rfl, .emptyRight h1 h2, rfl, .empty⟩
        · refine ⟨_, _, rfl, .emptyInitial h1 h2 fun d hd hm => ?_, rfl, .initial⟩
          rw [ZoneLib.isEmpty_iff] at h3
          have : delay (dim F) zeroVal d ∈ den (m'.applyInvariants (m.applyInvariants (init : F))) :=
            mem_applyInvariants.2 ⟨mem_applyInvariants.2 ⟨Sys.delay_zero_init hd, hm.1⟩, hm.2⟩
          rw [h3] at this
          exact this
        · obtain ⟨res, hres⟩ : ∃ res, f.report ord ord' s t = some res := by
            rcases hf with rfl | rfl <;> exact ⟨_, rfl⟩
          obtain ⟨x, q, p', hx, hq, hq1, hq2, hfx, h1, h2, h3, h4⟩ :=
            C58_reported he he' hok hok' hl hr hs ht hdim ho ho' h0 hres
          subst hx
          refine ⟨.state (refinementName s t) x, ⟨_, some (.refinementState q)⟩, ?_, .state hfx h1 h2 h3 h4,
            by rw [RefinementReport.toProto, hq]; rfl, ?_⟩
          · unfold RefFailure.describe
            rcases hf with rfl | rfl <;> (dsimp only; rw [hres]; rfl)
          · unfold RefReport.toProto at hq
            obtain ⟨y, hy, hq⟩ := bind_ok hq
            cases hq
            exact .state hy
      obtain ⟨x, m, k1, k2⟩ := key
      rw [k1, ok_bind]
      refine ⟨_, rfl, (by intro h; cases h), ?_⟩
      rintro f' hf'
      cases hf'
      exact ⟨x, m, rfl, k2⟩

/-- The verdict does not depend on what is reported. -/
theorem refinementReport_verdict {s t : Sys F} {ord ord' : List (String × Nat) → List (String × Nat)}
    {checks checks' : List Bool → Orders} {outs ins : List String} {fuel : Nat} {y : Option RefinementReport}
    (h : refinementReport ord ord' s t checks checks' outs ins fuel = .ok y) :
    ∃ o, checkRefinement s t checks checks' outs ins fuel = .ok o ∧ (o = none ↔ y = none) := by
  unfold refinementReport at h
  unfold checkRefinement
  rw [C72_consistency_verdict, C72_consistency_verdict]
  obtain ⟨o1, e1, h⟩ := bind_ok h
  rw [e1]
  cases o1 with
  | some g =>
    obtain ⟨x, _, h⟩ := bind_ok h
    cases h
    exact ⟨_, rfl, by simp⟩
  | none =>
    obtain ⟨o2, e2, h⟩ := bind_ok h
    rw [e2]
    cases o2 with
    | some g =>
      obtain ⟨x, _, h⟩ := bind_ok h
      cases h
      exact ⟨_, rfl, by simp⟩
    | none =>
      dsimp only at h
      show ∃ o, (match Refine.checkAlphabets s.ts t.ts with
        | some f => .ok (some f)
        | none => Refine.explore s.ts t.ts outs ins fuel : Res (Option (RefFailure F))) = .ok o ∧ (o = none ↔ y = none)
      have ha : Refine.checkAlphabets s.ts t.ts = none ↔ s.refinementFailure t = none := by
        unfold Refine.checkAlphabets Sys.refinementFailure
        show (if !(setDisjoint s.inputs t.outputs) then _ else if !(setDisjoint t.inputs s.outputs) then _ else
          if !(s.inputs.all fun a => t.inputs.contains a) then _ else if !(t.outputs.all fun a => s.outputs.contains a) then _
          else _) = none ↔ _
        split
        · simp
        split
        · simp
        split
        · simp
        split
        · simp
        · simp
      cases e3 : s.refinementFailure t with
      | some z =>
        rw [e3] at h
        obtain ⟨x, _, h⟩ := bind_ok h
        cases h
        cases e4 : Refine.checkAlphabets s.ts t.ts with
        | none => rw [ha.1 e4] at e3; cases e3
        | some f => exact ⟨_, rfl, by simp⟩
      | none =>
        rw [e3] at h
        rw [ha.2 e3]
        obtain ⟨o, e4, h⟩ := bind_ok h
        refine ⟨o, e4, ?_⟩
        cases o with
        | none => cases h; simp
        | some f =>
          obtain ⟨x, _, h⟩ := bind_ok h
          cases h
          simp

/-! ## Components -/

/-- **C76 (component).** A component that was built from a system can be written: no end of an edge is missing, and no location
is of the type that cannot be written. -/
theorem C76_component {s : Sys F} (hs : s.Accepted) {ord : ActionOrder F} (ho : ord.For s) {fuel : Nat} {name : String}
    {c : Component} (h : getComponent s ord fuel name = .ok c) : ∃ raw, c.write = .ok raw ∧ raw.name = name := by
  obtain ⟨trees, c0, ess, h1, _, h2, rfl, _⟩ := getComponent_spec h
  have hlocs : (({ c0 with name := name } : Component).remakeEdgeIds).locations = c0.locations := rfl
  have hty : ∃ ls, c0.locations.mapM Location.write = .ok ls := by
    refine mapM_total fun loc hloc => ?_
    obtain ⟨l, _, hl⟩ := forall2_mem_right h2.locs loc hloc
    obtain ⟨_, ht, _⟩ := saveLocation_spec hl
    unfold Location.write
    rw [ht]
    split <;> exact ⟨_, rfl⟩
  obtain ⟨ls, hls⟩ := hty
  have hends : ∀ e ∈ c0.edges, (c0.locations.map (·.id)).contains e.source = true ∧
      (c0.locations.map (·.id)).contains e.target = true := by
    have hin : ∀ l ∈ trees, (c0.locations.map (·.id)).contains l.id.display = true := by
      intro l hl
      obtain ⟨loc, hm, hloc⟩ := forall2_mem_left h2.locs l hl
      exact List.contains_iff_mem.2 (List.mem_map.2 ⟨loc, hm, (saveLocation_spec hloc).1⟩)
    intro e he
    obtain ⟨l, hl, es, h3, id, h4⟩ := h2.origin e he
    obtain ⟨sync, a, ha, trans, h5, t, ht, h6⟩ := (saveEdges_mem h3).2 _ h4
    obtain ⟨e1, e2, _⟩ := (saveEdge_spec h6).2 _ rfl
    have e1 : e.source = l.id.display := e1
    have e2 : e.target = t.target.id.display := e2
    rw [e1, e2]
    refine ⟨hin l hl, hin _ ?_⟩
    obtain ⟨o, hi, _⟩ := hs.good.initial
    cases o with
    | none =>
      unfold collectLocations at h1
      rw [show s.ts.initialLoc = .ok none from hi] at h1
      cases h1
      cases hl
    | some l0 =>
      refine (collect_linked hs ho h1 hi).2.2.2 l hl a trans ?_ h5 t ht
      unfold Sys.hasAction
      rcases List.mem_append.1 ha with ha | ha
      · simp [((ho l).1.mem_iff).1 ha]
      · simp [((ho l).2.mem_iff).1 ha]
  unfold Component.write
  rw [hlocs, if_pos, hls]
  · exact ⟨_, rfl, rfl⟩
  · rw [List.all_eq_true]
    intro e he
    obtain ⟨e0, he0, hs⟩ : ∃ e0 ∈ c0.edges, e.source = e0.source ∧ e.target = e0.target := by
      have he : e ∈ c0.edges.mapIdx fun i e => { e with id := "E" ++ toString i } := he
      obtain ⟨i, hi, rfl⟩ := List.mem_mapIdx.1 he
      exact ⟨_, List.getElem_mem hi, rfl, rfl⟩
    rw [hs.1, hs.2, (hends e0 he0).1, (hends e0 he0).2]
    rfl

theorem NewInputsUnused_alike {G : Type} [ZoneLib G] {ρ : ClockMap} : ∀ {s : Sys F} {s' : Sys G}, Sys.Alike ρ s s' →
    s.NewInputsUnused → s'.NewInputsUnused := by
  intro s
  induction s with
  | comp c => intro s' h _; cases s' <;> first | exact h.elim | trivial
  | composition l r _ _ _ _ _ ihl ihr =>
    intro s' h hn
    cases s' <;> first | exact h.elim | exact ⟨ihl h.1 hn.1, ihr h.2.1 hn.2⟩
  | conjunction l r _ _ ihl ihr =>
    intro s' h hn
    cases s' <;> first | exact h.elim | exact ⟨ihl h.1 hn.1, ihr h.2.1 hn.2⟩
  | quotient l r _ _ _ _ ihl ihr =>
    intro s' h hn
    cases s' <;> first | exact h.elim | skip
    obtain ⟨h1, h2, _, _, rfl, _⟩ := h
    exact ⟨ihl h1 hn.1, ihr h2 hn.2.1, by rw [h1.actions.2]; exact hn.2.2.1, by rw [h2.actions.1]; exact hn.2.2.2⟩

theorem clockReduceSingle_dim {env : CompileEnv F} {ord : HashOrder} {acts : Sys F → List String} {r r' : Recipe}
    {d d' : Nat} {q : Option Nat} (h : clockReduceSingle env ord acts r d q = .ok (r', d')) : d' ≤ d := by
  obtain ⟨⟨s, _⟩, _, h⟩ := bind_ok h
  obtain ⟨cl, _, h⟩ := bind_ok h
  obtain ⟨d1, h1, h⟩ := bind_ok h
  obtain ⟨x, _, h⟩ := bind_ok h
  cases h
  unfold subDim at h1
  split at h1 <;> cases h1
  exact Nat.sub_le _ _

theorem clockReduceTwo_dim {env env' : CompileEnv F} {ord ord' : HashOrder} {acts : Sys F → List String}
    {l r l' r' : Recipe} {d d' : Nat} {q : Option Nat}
    (h : clockReduceTwo env env' ord ord' acts l r d q = .ok (l', r', d')) : d' ≤ d := by
  obtain ⟨⟨s, _⟩, _, h⟩ := bind_ok h
  obtain ⟨cl, _, h⟩ := bind_ok h
  obtain ⟨⟨t, _⟩, _, h⟩ := bind_ok h
  obtain ⟨cr, _, h⟩ := bind_ok h
  dsimp only at h
  obtain ⟨d1, h3, h⟩ := bind_ok h
  obtain ⟨y, h2, h⟩ := bind_ok h
  obtain ⟨x, h1, h⟩ := bind_ok h
  simp only [compressDecls, List.map_cons, List.map_nil] at h
  have : d1 ≤ d := by
    unfold subDim at h3
    split at h3 <;> cases h3
    exact Nat.sub_le _ _
  by_cases hq : q.isSome = true
  · rw [if_pos hq] at h
    cases h
    exact this
  · rw [if_neg hq] at h
    cases h
    exact this

/-- Clock reduction keeps the names of the clocks of a component apart. -/
theorem Recipe.ReducedTo.clockTables {r r' : Recipe} {n m : Nat} {ρ : ClockMap} (h : r.ReducedTo r' n m ρ)
    (hr : r.ClockTables) : r'.ClockTables := by
  obtain ⟨rem, g, k, q', rfl, _⟩ := h.form
  intro c hc
  rw [Recipe.reshape_components] at hc
  obtain ⟨c0, h0, rfl⟩ := List.mem_map.1 hc
  have : ((c0.decls.clocks.filter fun p => !(c0.decls.namesOf rem).contains p.1).map (·.1)).Nodup :=
    (hr c0 h0).sublist (List.filter_sublist.map _)
  show (((c0.decls.strip (c0.decls.namesOf rem)).clocks.map fun p => (p.1, g p.2)).map (·.1)).Nodup
  rw [List.map_map]
  exact this

end

/-! ## Queries -/

section
variable {Z : Nat → Type} [∀ d, ZoneLib (Z d)]

theorem QueryEnv.reduceOne_dim {X : QueryEnv Z} {r r' : Recipe} {d d' : Nat} {q : Option Nat}
    (h : X.reduceOne r d q = .ok (r', d')) : d' ≤ d := by
  unfold QueryEnv.reduceOne clockReduce at h
  split at h
  · split at h
    · cases h; exact le_refl _
    · obtain ⟨⟨_, _, _⟩, h1, h⟩ := bind_ok h
      obtain ⟨⟨_, _⟩, h2, h1⟩ := bind_ok h1
      cases h1; cases h
      exact clockReduceSingle_dim h2
  · cases h; exact le_refl _

theorem QueryEnv.reduceTwo_dim {X : QueryEnv Z} {l r l' r' : Recipe} {d d' : Nat} {q : Option Nat}
    (h : X.reduceTwo l r d q = .ok (l', r', d')) : d' ≤ d := by
  unfold QueryEnv.reduceTwo clockReduce at h
  split at h
  · split at h
    · cases h; exact le_refl _
    · obtain ⟨⟨_, o, _⟩, h1, h⟩ := bind_ok h
      obtain ⟨⟨_, _, _⟩, h2, h1⟩ := bind_ok h1
      cases h1; cases h
      exact clockReduceTwo_dim h2
  · cases h; exact le_refl _

/-- **C76 (verdict).** If a query has a result, the answer without the report exists, and the result says the same: a line
`satisfied` is printed exactly if the answer is yes, a component is printed as created, and the response is of the kind the
query asks for and means yes exactly if the answer is yes. -/
theorem C76_verdict (X : QueryEnv Z) (E : ReportEnv) (load : String → Res Component) (q : QueryExpr) (x : QueryReport)
    (h : X.result E load q = .ok x) : ∃ A, X.run load q = .ok A ∧ (x.printed = .satisfied ↔ A.Yes) ∧
      (x.printed = .created ↔ ∃ c, A = .getComponent c) ∧ ∀ ord m, x.toProto ord = .ok m → m.Fits q ∧ (m.Yes ↔ A.Yes) := by
  have kinds : ∀ {m : ProtoResult}, (m = .success → m.Yes) ∧ ((∃ f, m = .refinement f) → ¬ m.Yes) ∧
      ((∃ f, m = .consistency f) → ¬ m.Yes) ∧ ((∃ f, m = .determinism f) → ¬ m.Yes) ∧
      ((∃ ds, m = .reachability (.path ds)) → m.Yes) ∧ ((∃ k, m = .reachability (.failure k)) → ¬ m.Yes) ∧
      ((∃ c, m = .component c) → ¬ m.Yes) := by
    intro m
    refine ⟨.inl, ?_, ?_, ?_, .inr, ?_, ?_⟩
    all_goals rintro ⟨_, rfl⟩ (h | ⟨_, h⟩) <;> cases h
  cases q with
  | refinement e e' =>
    unfold QueryEnv.result at h
    dsimp only at h
    unfold QueryEnv.refinementResult at h
    obtain ⟨⟨l, d, q⟩, h1, h⟩ := bind_ok h
    obtain ⟨⟨r, d, q⟩, h2, h⟩ := bind_ok h
    obtain ⟨⟨l', r', d'⟩, h3, h⟩ := bind_ok h
    obtain ⟨⟨s, i⟩, h4, h⟩ := bind_ok h
    obtain ⟨⟨t, j⟩, h5, h⟩ := bind_ok h
    obtain ⟨y, h6, h⟩ := bind_ok h
    cases h
    obtain ⟨o, ho, hy⟩ : ∃ o, checkRefinement s t (X.checks d' s) (X.checks' d' t) (X.outs d' s) (X.ins d' t) X.fuel = .ok o ∧
        (o = none ↔ y = none) := refinementReport_verdict h6
    refine ⟨.refinement d' o, ?_, ?_, ?_, ?_⟩
    · unfold QueryEnv.run
      dsimp only
      unfold QueryEnv.refinement QueryEnv.refinementOf
      simp only [h1, h2, h3, h4, h5, ho, ok_bind]
    · rw [show (QueryOutcome.refinement (Z := Z) d' o).Yes ↔ y = none from hy]
      cases y <;> simp [QueryReport.printed]
    · cases y <;> simp [QueryReport.printed]
    · intro ord m hm
      rw [show (QueryOutcome.refinement (Z := Z) d' o).Yes ↔ y = none from hy]
      cases y with
      | none => cases hm; exact ⟨.inl rfl, iff_of_true (.inl rfl) rfl⟩
      | some f =>
        obtain ⟨f', _, hm⟩ := bind_ok hm
        cases hm
        exact ⟨.inr ⟨_, rfl⟩, iff_of_false (kinds.2.1 ⟨_, rfl⟩) (by simp)⟩
  | reachability e start goal =>
    obtain ⟨⟨r, d, q⟩, h1, h⟩ := bind_ok h
    obtain ⟨⟨s, st, en⟩, h2, h⟩ := bind_ok h
    obtain ⟨y, h3, h⟩ := bind_ok h
    cases h
    unfold findSpecificPath at h3
    obtain ⟨o, h4, h3⟩ := bind_ok h3
    have hy : o = none ↔ y = none := by
      cases o with
      | none => cases h3; simp
      | some ds => obtain ⟨xs, _, h3⟩ := bind_ok h3; cases h3; simp
    refine ⟨.reachability d o, ?_, ?_, ?_, ?_⟩
    · unfold QueryEnv.run
      dsimp only
      unfold QueryEnv.reachabilityOf
      simp only [h1, h2, h4, ok_bind]
    · rw [show (QueryOutcome.reachability (Z := Z) d o).Yes ↔ y ≠ none from not_congr hy]
      cases y <;> simp [QueryReport.printed]
    · cases y <;> simp [QueryReport.printed]
    · intro ord m hm
      rw [show (QueryOutcome.reachability (Z := Z) d o).Yes ↔ y ≠ none from not_congr hy]
      obtain ⟨p, hp, hm⟩ := bind_ok hm
      cases hm
      cases y with
      | none => cases hp; exact ⟨.inr rfl, iff_of_false (kinds.2.2.2.2.2.1 ⟨_, rfl⟩) (by simp)⟩
      | some xs =>
        obtain ⟨ds, _, hp⟩ := bind_ok hp
        cases hp
        exact ⟨.inl ⟨_, rfl⟩, iff_of_true (.inr ⟨_, rfl⟩) (by simp)⟩
  | consistency e =>
    obtain ⟨⟨d, s⟩, h1, h⟩ := bind_ok h
    obtain ⟨y, h2, h⟩ := bind_ok h
    refine ⟨.consistency d (y.map (·.2)), ?_, ?_⟩
    · unfold QueryEnv.run
      dsimp only
      rw [h1, ok_bind]
      dsimp only
      rw [C72_consistency_verdict, h2]
      rfl
    cases y with
    | none =>
      cases h
      refine ⟨iff_of_true rfl rfl, by simp [QueryReport.printed], ?_⟩
      intro ord m hm
      cases hm
      exact ⟨.inl rfl, iff_of_true (.inl rfl) rfl⟩
    | some f =>
      obtain ⟨f', _, h⟩ := bind_ok h
      cases h
      refine ⟨by simp [QueryReport.printed, QueryOutcome.Yes], by simp [QueryReport.printed], ?_⟩
      intro ord m hm
      obtain ⟨g, _, hm⟩ := bind_ok hm
      cases hm
      exact ⟨.inr ⟨_, rfl⟩, iff_of_false (kinds.2.2.1 ⟨_, rfl⟩) (by simp [QueryOutcome.Yes])⟩
  | determinism e =>
    obtain ⟨⟨d, s⟩, h1, h⟩ := bind_ok h
    obtain ⟨y, h2, h⟩ := bind_ok h
    refine ⟨.determinism d (y.map (·.2)), ?_, ?_⟩
    · unfold QueryEnv.run
      dsimp only
      rw [h1, ok_bind]
      dsimp only
      rw [C72_determinism_verdict, h2]
      rfl
    cases y with
    | none =>
      cases h
      refine ⟨iff_of_true rfl rfl, by simp [QueryReport.printed], ?_⟩
      intro ord m hm
      cases hm
      exact ⟨.inl rfl, iff_of_true (.inl rfl) rfl⟩
    | some f =>
      obtain ⟨f', _, h⟩ := bind_ok h
      cases h
      refine ⟨by simp [QueryReport.printed, QueryOutcome.Yes], by simp [QueryReport.printed], ?_⟩
      intro ord m hm
      obtain ⟨g, _, hm⟩ := bind_ok hm
      cases hm
      exact ⟨.inr ⟨_, rfl⟩, iff_of_false (kinds.2.2.2.1 ⟨_, rfl⟩) (by simp [QueryOutcome.Yes])⟩
  | getComponent e =>
    obtain ⟨s, h1, h⟩ := bind_ok h
    obtain ⟨c, h2, h⟩ := bind_ok h
    cases h
    refine ⟨.getComponent c, ?_, by simp [QueryReport.printed, QueryOutcome.Yes], by simp [QueryReport.printed], ?_⟩
    · unfold QueryEnv.run
      dsimp only
      rw [h1, ok_bind, h2, ok_bind]
    · intro ord m hm
      obtain ⟨g, _, hm⟩ := bind_ok hm
      cases hm
      exact ⟨⟨_, rfl⟩, iff_of_false (kinds.2.2.2.2.2.2 ⟨_, rfl⟩) (by simp [QueryOutcome.Yes])⟩
  | prune e =>
    obtain ⟨s, h1, h⟩ := bind_ok h
    obtain ⟨c, h2, h⟩ := bind_ok h
    cases h
    refine ⟨.getComponent c, ?_, by simp [QueryReport.printed, QueryOutcome.Yes], by simp [QueryReport.printed], ?_⟩
    · unfold QueryEnv.run
      dsimp only
      rw [h1, ok_bind, h2, ok_bind]
    · intro ord m hm
      obtain ⟨g, _, hm⟩ := bind_ok hm
      cases hm
      exact ⟨⟨_, rfl⟩, iff_of_false (kinds.2.2.2.2.2.2 ⟨_, rfl⟩) (by simp [QueryOutcome.Yes])⟩
  | implementation e => cases h
  | specification e => cases h
  | bisimMinim e => cases h

/-- What the conversion of a result depends on. -/
structure ReportEnv.Fair (E : ReportEnv) : Prop where
  clocks : ∀ l, (E.clocks l).Perm l
  clocks' : ∀ l, (E.clocks' l).Perm l

/-- **C76 (refinement query).** If a refinement query has an answer, it can be reported and sent; the response of a failed one
carries the name of the refinement and tells the failure. -/
theorem C76_refinement_answered_partial (hZ : ∀ d, dim (Z d) = d + 1) (X : QueryEnv Z) (hX : X.Fair) (hch : X.FairChecks)
    (E : ReportEnv) (hE : E.Fair) (load : String → Res Component) (hload : ∀ n c, load n = .ok c → c.decls.Numbered)
    (e e' : SysExpr) (l r : Recipe) (d : Nat) (q : Option Nat) (hr : getRecipes load [e, e'] 0 none = .ok ([l, r], d, q))
    (hc : X.Comparable l r d q) (s t : Sys (Z d)) (hs : l.Means s) (ht : r.Means t) (hn : s.NewInputsUnused)
    (hn' : t.NewInputsUnused) (hne : s.inputs ≠ [] ∨ s.outputs ≠ []) (d' : Nat) (o : Option (RefFailure (Z d')))
    (h : X.run load (.refinement e e') = .ok (.refinement d' o)) :
    ∃ (l' r' : Recipe) (s' t' : Sys (Z d')) (ρ σ : ClockMap) (y : Option RefinementReport),
      l.ReducedTo l' (d + 1) (d' + 1) ρ ∧ r.ReducedTo r' (d + 1) (d' + 1) σ ∧ l'.Means s' ∧ r'.Means t' ∧
      X.result E load (.refinement e e') = .ok (.refinement y) ∧ (o = none → y = none) ∧
      ∀ f, o = some f → ∃ x m, y = some x ∧ x.Told l' r' s' t' f ∧ x.toProto E.actions = .ok m ∧ m.Says E.actions x := by
  obtain ⟨hnum, horder, hql, hqr⟩ := C60_numbered_two hload hr
  obtain ⟨⟨l0, d1, q1⟩, ha, hr⟩ := bind_ok hr
  obtain ⟨⟨bs, d2, q2⟩, hb, hr⟩ := bind_ok hr
  obtain ⟨⟨r0, d3, q3⟩, hb, h'⟩ := bind_ok hb
  cases h'
  cases hr
  have h : X.refinement load e e' = .ok (.refinement d' o) := h
  unfold QueryEnv.refinement at h
  rw [ha, ok_bind] at h
  dsimp only at h
  rw [hb, ok_bind] at h
  dsimp only at h
  unfold QueryEnv.refinementOf at h
  obtain ⟨⟨l', r', d'⟩, h1, h⟩ := bind_ok h
  obtain ⟨⟨s', j⟩, h2, h⟩ := bind_ok h
  obtain ⟨⟨t', j'⟩, h3, h⟩ := bind_ok h
  obtain ⟨o, h4, h⟩ := bind_ok h
  cases h
  obtain ⟨ρ, σ, a, b, _⟩ := X.reduceTwo_form hZ (hX.compiled d).1 (hX.compiled d).2.1 hnum horder hc.small hc.left hc.right
    hql hqr hc.one hc.harmless hc.harmless' hc.merge h1
  have hd := QueryEnv.reduceTwo_dim h1
  have hsm := hc.small
  have a' := a
  have b' := b
  rw [← hZ, ← hZ] at a' b'
  obtain ⟨_, _, als, _⟩ := a'.behaves (hX.compiled d').2.2.1 hs h2
  obtain ⟨_, _, alt, _⟩ := b'.behaves (hX.compiled d').2.2.2 ht h3
  obtain ⟨y, hy, k1, k2⟩ := C76_refinement_partial (hX.compiled d').2.2.1 (hX.compiled d').2.2.2 a'.ok' b'.ok'
    (a.clockTables fun c hm => (hc.left c hm).1.names) (b.clockTables fun c hm => (hc.right c hm).1.names) h2 h3
    (by rw [hZ]; omega) hE.clocks hE.clocks' (hch d' s').1 (hch d' t').2 (NewInputsUnused_alike als hn)
    (NewInputsUnused_alike alt hn') (by rw [als.actions.1, als.actions.2]; exact hne) E.actions h4
  refine ⟨l', r', s', t', ρ, σ, y, a, b, ⟨_, _, _, (hX.compiled d').2.2.1, h2⟩, ⟨_, _, _, (hX.compiled d').2.2.2, h3⟩, ?_, k1, k2⟩
  unfold QueryEnv.result
  dsimp only
  unfold QueryEnv.refinementResult
  simp only [ha, hb, h1, h2, h3, hy, ok_bind]

/-- **C76 (checks).** The same for consistency and determinism queries. -/
theorem C76_checks_answered_partial (hZ : ∀ d, dim (Z d) = d + 1) (X : QueryEnv Z) (hX : X.Fair) (hch : X.FairChecks)
    (E : ReportEnv) (hE : E.Fair) (load : String → Res Component) (hload : ∀ n c, load n = .ok c → c.decls.Numbered)
    (e : SysExpr) (r : Recipe) (d : Nat) (q : Option Nat) (hr : getRecipes load [e] 0 none = .ok ([r], d, q))
    (hc : X.Askable r d q) :
    (∀ d' o, X.run load (.consistency e) = .ok (.consistency d' o) → ∃ y m, X.result E load (.consistency e) = .ok y ∧
      y.toProto E.actions = .ok m ∧ m.Fits (.consistency e) ∧ (m.Yes ↔ o = none)) ∧
    ∀ d' o, X.run load (.determinism e) = .ok (.determinism d' o) → ∃ y m, X.result E load (.determinism e) = .ok y ∧
      y.toProto E.actions = .ok m ∧ m.Fits (.determinism e) ∧ (m.Yes ↔ o = none) := by
  have form : ∀ {d' : Nat} {s' : Sys (Z d')}, X.system load e = .ok ⟨d', s'⟩ → ∃ (r' : Recipe) (j : Nat), r'.compile (X.compiled d') 0 = .ok (s', j) ∧
      r'.Ok (dim (Z d')) ∧ r'.ClockTables ∧ dim (Z d') ≤ 2 ^ 32 := by
    intro d' s' h1
    obtain ⟨r', ρ, j, a, h3⟩ := X.system_form hZ hX hload hr hc h1
    refine ⟨r', j, h3, a.ok', a.clockTables fun c hm => (hc.comps c hm).1.names, ?_⟩
    obtain ⟨⟨r0, d1, q1⟩, ha, hr⟩ := bind_ok hr
    cases hr
    unfold QueryEnv.system at h1
    rw [ha, ok_bind] at h1
    dsimp only at h1
    unfold QueryEnv.systemOf at h1
    obtain ⟨⟨r', d'⟩, h4, h1⟩ := bind_ok h1
    obtain ⟨⟨s', j⟩, h2, h⟩ := bind_ok h1
    cases h
    have := QueryEnv.reduceOne_dim h4
    have := hc.small
    rw [hZ]; omega
  constructor
  · intro d' o h
    have h0 := h
    unfold QueryEnv.run at h
    dsimp only at h
    obtain ⟨⟨d1, s'⟩, h1, h⟩ := bind_ok h
    obtain ⟨o, h2, h⟩ := bind_ok h
    cases h
    obtain ⟨r', j, h3, hok, htab, hdim⟩ := form h1
    obtain ⟨a1, a2, a3⟩ := (hch d1 s').1.spec
    rw [C72_consistency_verdict] at h2
    have key : ∃ y m, X.result E load (.consistency e) = .ok y ∧ y.toProto E.actions = .ok m := by
      cases e1 : s'.precheckFailure (X.checks d1 s') X.fuel with
      | error e => rw [e1] at h2; cases h2
      | ok o1 =>
        unfold QueryEnv.result
        dsimp only
        rw [h1, ok_bind]
        dsimp only
        rw [e1, ok_bind]
        cases o1 with
        | none => exact ⟨_, _, rfl, rfl⟩
        | some g =>
          obtain ⟨p, g⟩ := g
          obtain ⟨x, m, n, c, k1, k2, _⟩ := cons_reported (hX.compiled d1).2.2.1 hok htab h3 hdim (insts := r'.components)
            (fun n c hm => by rw [Nat.zero_add]; exact hm) E.clocks hE.clocks (X.checks d1 s') a1 a2 a3 X.fuel p g e1
          dsimp only
          rw [k1, ok_bind]
          exact ⟨_, .consistency m, rfl, by rw [QueryReport.toProto, k2]; rfl⟩
    obtain ⟨y, m, k1, k2⟩ := key
    obtain ⟨A, k3, _, _, k4⟩ := C76_verdict X E load _ y k1
    rw [h0] at k3
    cases k3
    exact ⟨y, m, k1, k2, k4 _ _ k2⟩
  · intro d' o h
    have h0 := h
    unfold QueryEnv.run at h
    dsimp only at h
    obtain ⟨⟨d1, s'⟩, h1, h⟩ := bind_ok h
    obtain ⟨o, h2, h⟩ := bind_ok h
    cases h
    obtain ⟨r', j, h3, hok, htab, hdim⟩ := form h1
    obtain ⟨a1, a2, a3⟩ := (hch d1 s').1.spec
    rw [C72_determinism_verdict] at h2
    have key : ∃ y m, X.result E load (.determinism e) = .ok y ∧ y.toProto E.actions = .ok m := by
      cases e1 : s'.detFailure (X.checks d1 s') X.fuel with
      | error e => rw [e1] at h2; cases h2
      | ok o1 =>
        unfold QueryEnv.result
        dsimp only
        rw [h1, ok_bind]
        dsimp only
        rw [e1, ok_bind]
        cases o1 with
        | none => exact ⟨_, _, rfl, rfl⟩
        | some g =>
          obtain ⟨p, g⟩ := g
          obtain ⟨x, m, n, c, loc, k1, k2, _⟩ := det_reported (hX.compiled d1).2.2.1 hok htab h3 hdim (insts := r'.components)
            (fun n c hm => by rw [Nat.zero_add]; exact hm) E.clocks hE.clocks (X.checks d1 s') a1 X.fuel p g e1
          dsimp only
          rw [k1, ok_bind]
          exact ⟨_, .determinism m, rfl, by rw [QueryReport.toProto, k2]; rfl⟩
    obtain ⟨y, m, k1, k2⟩ := key
    obtain ⟨A, k3, _, _, k4⟩ := C76_verdict X E load _ y k1
    rw [h0] at k3
    cases k3
    exact ⟨y, m, k1, k2, k4 _ _ k2⟩

/-- **C76 (component queries).** If a `get-component` or `prune` query is answered with a component, it can be sent. -/
theorem C76_component_answered_partial (hZ : ∀ d, dim (Z d) = d + 1) (X : QueryEnv Z) (hX : X.Fair) (hX' : X.FairSaves)
    (E : ReportEnv) (load : String → Res Component) (hload : ∀ n c, load n = .ok c → c.decls.Numbered) (e : SaveExpr)
    (r : Recipe) (d : Nat) (q : Option Nat) (hr : getRecipes load [e.system] 0 none = .ok ([r], d, q)) (hc : X.Askable r d q)
    (hn : r.Readable) (Q : QueryExpr) (hQ : Q = .getComponent e ∨ Q = .prune e) (c : Component)
    (h : X.run load Q = .ok (.getComponent c)) :
    ∃ raw, X.result E load Q = .ok (.getComponent c) ∧ (QueryReport.getComponent c).toProto E.actions = .ok (.component raw) ∧
      c.write = .ok raw ∧ raw.name = e.name.getD "Unnamed" := by
  have key : ∃ b s', X.system load e.system = .ok s' ∧ X.componentOf b s' e.name = .ok c ∧
      X.result E load Q = .ok (.getComponent c) := by
    rcases hQ with rfl | rfl
    all_goals
      unfold QueryEnv.run at h
      dsimp only at h
      obtain ⟨s', h1, h⟩ := bind_ok h
      obtain ⟨c', h2, h⟩ := bind_ok h
      cases h
      exact ⟨_, s', h1, h2, by unfold QueryEnv.result; dsimp only; rw [h1, ok_bind, h2, ok_bind]⟩
  obtain ⟨b, ⟨d', s'⟩, h1, h2, h3⟩ := key
  obtain ⟨r', ρ, j, a, h4⟩ := X.system_form hZ hX hload hr hc h1
  have ha := Recipe.compile_accepted (hX.compiled d').2.2.1 a.ok' h4
  have hw : ∃ raw, c.write = .ok raw ∧ raw.name = e.name.getD "Unnamed" := by
    unfold QueryEnv.componentOf at h2
    dsimp only at h2
    cases b with
    | false => exact C76_component ha (hX'.saved d' s') h2
    | true =>
      obtain ⟨s1, h5, h6⟩ := bind_ok h2
      have hv : s'.Savable := by
        obtain ⟨rem, g, k, q', rfl, _⟩ := a.form
        refine Recipe.compile_savable (hX.compiled d').2.2.1 a.ok' hn.reshape (fun c' hc' => ?_) h4
        rw [Recipe.reshape_components] at hc'
        obtain ⟨c0, hc0, rfl⟩ := List.mem_map.1 hc'
        exact (hc.comps c0 hc0).1.savable.reduced rem g
      exact C76_component (pruned_savable ha hv (hX'.pruned d') (hX'.saved d' s') h5).1 (hX'.saved d' s1) h6
  obtain ⟨raw, k1, k2⟩ := hw
  exact ⟨raw, h3, by rw [QueryReport.toProto, k1]; rfl, k1, k2⟩

/-- **C76 (reachability query).** If a reachability query has an answer, it can be reported and sent: a path as a path, and
that there is none as a failure. -/
theorem C76_reachability_answered_partial (hZ : ∀ d, dim (Z d) = d + 1) (X : QueryEnv Z) (hX : X.Fair) (E : ReportEnv)
    (hE : E.Fair) (load : String → Res Component) (hload : ∀ n c, load n = .ok c → c.decls.Numbered) (e : SysExpr) (r : Recipe)
    (d : Nat) (q : Option Nat) (hr : getRecipes load [e] 0 none = .ok ([r], d, q)) (hc : r.Searchable d) (hd : d < 2 ^ 32)
    (hpl : ∀ c ∈ r.components, c.Plain ∧ c.Deadlines (d + 1)) (start : Option StateExpr) (goal : StateExpr)
    (o : Option (List (Decision (Z d)))) (h : X.run load (.reachability e start goal) = .ok (.reachability d o)) :
    ∃ y m, X.result E load (.reachability e start goal) = .ok y ∧ y.toProto E.actions = .ok m ∧
      m.Fits (.reachability e start goal) ∧ (m.Yes ↔ o ≠ none) := by
  have h0 := h
  have hok := Recipe.Searchable.ok hZ hload hr hc
  obtain ⟨t, j, st, en, p, h1, h2, h3, h4, h5, hA⟩ := X.reachability_form hr h
  cases hA
  have hperm := (hX.compiled d).2.2.1
  obtain ⟨ha, hloc, hp⟩ := C46_query _ hperm r hok start goal t st en h4
  obtain ⟨_, hpast⟩ := Recipe.compile_ofPlain hperm hok
    (fun c hm => ⟨by rw [hZ]; exact (hc.comps c hm).1.clear, by rw [hZ]; exact hpl c hm⟩) h1
  obtain ⟨⟨r0, d1, q1⟩, e1, hr⟩ := bind_ok hr
  cases hr
  have key : ∃ y m, X.result E load (.reachability e start goal) = .ok y ∧ y.toProto E.actions = .ok m := by
    unfold QueryEnv.result
    dsimp only
    rw [e1, ok_bind]
    dsimp only
    rw [h4, ok_bind]
    cases o with
    | none =>
      have : findSpecificPath (X.zoneBounds d) E.clocks t st en X.fuel = .ok none := by
        unfold findSpecificPath
        rw [h5]
        rfl
      dsimp only
      rw [this]
      exact ⟨_, _, rfl, rfl⟩
    | some ds =>
      obtain ⟨xs, qs, g1, g2, _⟩ := C75_path_partial hperm hok (fun c hm => (hc.comps c hm).1.names) h1 (by rw [hZ]; omega)
        hE.clocks hpast (X.zoneBounds d) st en hloc hp X.fuel ds h5
      dsimp only
      rw [g1]
      exact ⟨_, .reachability (.path (some qs)), rfl, by rw [QueryReport.toProto, g2]; rfl⟩
  obtain ⟨y, m, k1, k2⟩ := key
  obtain ⟨A, k3, _, _, k4⟩ := C76_verdict X E load _ y k1
  rw [h0] at k3
  cases k3
  exact ⟨y, m, k1, k2, k4 _ _ k2⟩

/-! ## From the text of the query to the response -/

theorem respond_form {X : QueryEnv Z} {E : ReportEnv} {load : String → Res Component} {text : Text.Chars} {m : ProtoResult}
    (h : X.respond E load text = .ok m) : ∃ q x, parseQueries text = .ok [q] ∧ X.result E load q = .ok x ∧
      x.toProto E.actions = .ok m := by
  unfold QueryEnv.respond at h
  obtain ⟨qs, h1, h⟩ := bind_ok h
  split at h
  · rename_i q
    obtain ⟨x, h2, h⟩ := bind_ok h
    exact ⟨q, x, h1, h2, h⟩
  · cases h

/-- **C76 (response).** A text that gets a response is one query, the response is of the kind the query asks for, and means
yes exactly if the answer to the query is yes. -/
theorem C76_response (X : QueryEnv Z) (E : ReportEnv) (load : String → Res Component) (text : Text.Chars) (m : ProtoResult)
    (h : X.respond E load text = .ok m) : ∃ q A, parseQueries text = .ok [q] ∧ X.run load q = .ok A ∧ m.Fits q ∧
      (m.Yes ↔ A.Yes) := by
  obtain ⟨q, x, h1, h2, h3⟩ := respond_form h
  obtain ⟨A, h4, _, _, h5⟩ := C76_verdict X E load q x h2
  exact ⟨q, A, h1, h4, h5 _ _ h3⟩

/-- **C76 (end to end).** A client that sends the text of a refinement query and reads the response `success` may rely on the
refinement. -/
theorem C76_success_partial (hZ : ∀ d, dim (Z d) = d + 1) (X : QueryEnv Z) (hX : X.Fair) (E : ReportEnv)
    (load : String → Res Component) (hload : ∀ n c, load n = .ok c → c.decls.Numbered) (e e' : SysExpr) (l r : Recipe)
    (d : Nat) (q : Option Nat) (hr : getRecipes load [e, e'] 0 none = .ok ([l, r], d, q)) (hc : X.Comparable l r d q)
    (s t : Sys (Z d)) (hs : l.Means s) (ht : r.Means t) (hconv : ∀ m w, t.ts.Reach m w → TimeConvex m)
    (hinit : ∀ l m, s.ts.initialLoc = .ok (some l) → t.ts.initialLoc = .ok (some m) →
      ∀ d, TS.CanDelay l zeroVal d → TS.CanDelay m zeroVal d)
    (hq : (QueryExpr.refinement e e').Writable)
    (h : X.respond E load (QueryExpr.refinement e e').print = .ok .success) : Refines s.ts t.ts := by
  obtain ⟨q', A, h1, h2, _, h3⟩ := C76_response X E load _ _ h
  rw [C51_roundtrip_partial hq] at h1
  cases h1
  obtain ⟨_, _, _, _, _, _, _, _, _, o, _, _, _, _, _, _, hA⟩ := X.refinement_form hZ hX hload hr hc h2
  subst hA
  have : o = none := h3.1 (.inl rfl)
  subst this
  exact C64_refinement_partial hZ X hX load hload e e' l r d q hr hc s t hs ht hconv hinit _ h2

end

/-! ## Concrete cases -/

def plainReport : ReportEnv := ⟨id, id, id⟩

theorem plainReport_fair : plainReport.Fair := ⟨fun _ => .refl _, fun _ => .refl _⟩

/-- The text `refinement: A <= B` is answered with `success`, and so `A` refines `B`. -/
theorem exRespond_yes : (plainQueries (Z := FedD) true).respond plainReport loadTwo
    (QueryExpr.refinement (.component "A" none) (.component "B" none)).print = .ok .success := by
  have h : (match (plainQueries (Z := FedD) true).respond plainReport loadTwo
      (QueryExpr.refinement (.component "A" none) (.component "B" none)).print with
    | .ok .success => true | _ => false) = true := by decide +kernel
  split at h
  · assumption
  · cases h

example : Refines sysClient.ts sysServer.ts := by
  refine C76_success_partial dim_fedD (plainQueries true) (plainQueries_fair _) plainReport loadTwo loadTwo_numbered _ _ _ _ 3
    none exTwo_recipes.1 (exTwo_comparable true (.inl rfl)) sysClient sysServer exTwo_means.1 exTwo_means.2.1 ?_
    (sysServer_initial (k := 1) (.inl rfl)) ⟨isName_of rfl (by decide), isName_of rfl (by decide)⟩ exRespond_yes
  intro m w hr
  exact Sys.convex_comp (c := exServer3 1) (Component.ok_of_okB (by decide)) (fun _ => .refl _) (getOk_eq _) (fun l hl g hg => by
    rw [List.mem_singleton.1 hl] at hg; cases hg) m (sysServer_good.reach hr).1

theorem plainQueries_checks (b : Bool) : (plainQueries (Z := FedD) b).FairChecks := fun _ s => ⟨ownOrders_all s, ownOrders_all s⟩

/-- `A <= C` fails: the failure is told and can be sent. -/
example : ∃ (l' r' : Recipe) (s' t' : Sys (FedD 2)) (f : RefFailure (FedD 2)) (x : RefinementReport) (m : ProtoRefinementFailure),
    (plainQueries (Z := FedD) true).result plainReport loadTwo (.refinement (.component "A" none) (.component "C" none)) =
      .ok (.refinement (some x)) ∧ x.Told l' r' s' t' f ∧ x.toProto id = .ok m ∧ m.Says id x := by
  obtain ⟨f, hf, hp⟩ := refinementAnswer_no (d := 2)
    (x := (plainQueries true).run loadTwo (.refinement (.component "A" none) (.component "C" none))) (by decide +kernel)
  obtain ⟨l', r', s', t', _, _, y, _, _, _, _, h1, _, h2⟩ := C76_refinement_answered_partial dim_fedD (plainQueries true)
    (plainQueries_fair _) (plainQueries_checks _) plainReport plainReport_fair loadTwo loadTwo_numbered _ _ _ _ 3 none
    exTwo_recipes.2 (exTwo_comparable true (.inr rfl)) sysClient sysPicky exTwo_means.1 exTwo_means.2.2 trivial trivial
    (.inr (by decide +kernel)) 2 (some f) hf
  obtain ⟨x, m, rfl, h3⟩ := h2 f rfl
  exact ⟨l', r', s', t', f, x, m, h1, h3⟩

/-- `determinism: A` and `consistency: A` are answered, and the answers can be sent. -/
example : ∃ y m, (plainQueries (Z := FedD) true).result plainReport loadTwo (.determinism (.component "A" none)) = .ok y ∧
    y.toProto id = .ok m ∧ m.Yes := by
  have h : (plainQueries (Z := FedD) true).run loadTwo (.determinism (.component "A" none)) = .ok (.determinism 1 none) :=
    determinism_answer (by decide +kernel)
  obtain ⟨y, m, h1, h2, _, h3⟩ := (C76_checks_answered_partial dim_fedD (plainQueries true) (plainQueries_fair _)
    (plainQueries_checks _) plainReport plainReport_fair loadTwo loadTwo_numbered _ _ 2 none rfl exOne_askable).2 1 none h
  exact ⟨y, m, h1, h2, h3.2 rfl⟩

/-- The conjunction of `A` and `B` as a component can be sent. -/
example : ∃ raw, outQueries.result plainReport loadTwo (.getComponent ⟨bothAB, some "AB"⟩) = .ok (.getComponent exBothAB) ∧
    exBothAB.write = .ok raw ∧ raw.name = "AB" := by
  have h1 : outQueries.run loadTwo (.getComponent ⟨bothAB, some "AB"⟩) = .ok (.getComponent exBothAB) :=
    answeredComponent_eq (by decide +kernel)
  obtain ⟨raw, h2, _, h3⟩ := C76_component_answered_partial dim_fedD outQueries outQueries_fair ⟨fun _ _ _ => ⟨.refl _, .refl _⟩,
    fun _ _ => .refl _⟩ plainReport loadTwo loadTwo_numbered ⟨bothAB, some "AB"⟩ recAB 3 none rfl recAB_askable (by unfold recAB Recipe.Readable; decide +kernel) _
    (.inl rfl) _ h1
  exact ⟨raw, h2, h3⟩

/-- The query `reachability: A -> A.L1 && A.x > 3` is answered with a path, which can be sent. -/
example : ∃ y ds, pathQueries.result plainReport exLoadA (.reachability (.component "A" none) none exLater) = .ok y ∧
    y.toProto id = .ok (.reachability (.path (some ds))) := by
  have h : answeredPath (pathQueries.run exLoadA (.reachability (.component "A" none) none exLater)) =
      some (1, [("go", [⟨⟨"A", 0⟩, "e0"⟩])]) := by decide +kernel
  revert h
  generalize hx : pathQueries.run exLoadA (.reachability (.component "A" none) none exLater) = x
  intro h
  unfold answeredPath at h
  split at h
  · next ds =>
    obtain ⟨y, m, h1, h2, h3, h4⟩ := C76_reachability_answered_partial dim_fedD pathQueries pathQueries_fair plainReport
      plainReport_fair exLoadA exLoadA_numbered (.component "A" none) _ 1 none rfl exA_searchable (by decide)
      (fun c hc => by rw [List.mem_singleton.1 hc]; exact ⟨Component.plain_of_plainB (by decide), exA_deadlines⟩) none exLater
      (some ds) hx
    have hy := h4.2 (by simp)
    rcases h3 with ⟨qs, rfl⟩ | rfl
    · exact ⟨y, qs, h1, h2⟩
    · rcases hy with hy | ⟨_, hy⟩ <;> cases hy
  · cases h

end Reveaal
