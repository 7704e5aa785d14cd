import Verif.Props.C27

/-!
# C28: input enabling only adds missing moves

Partial: that an added loop is never enabled together with an existing edge is proved for components in which no edge
assigns two different values to one clock; see the witness at the end.
-/

namespace Reveaal
open ZoneLib

variable {F : Type} [ZoneLib F]

/-- **C28**, first part: everything that was there stays, and only input loops without updates on the given inputs are
added. -/
theorem C28_kept (c c' : Component) (inputs : List String) (h : makeInputEnabled F c inputs = .ok c') :
    c'.name = c.name ∧ c'.decls = c.decls ∧ c'.locations = c.locations ∧ ∃ new, c'.edges = c.edges ++ new ∧
      ∀ e ∈ new, e.sync = .input ∧ e.source = e.target ∧ e.update = none ∧ e.action ∈ inputs ∧
        ∃ l ∈ c.locations, e.source = l.id := by
  obtain ⟨new, rfl, hnew, _⟩ := makeInputEnabled_spec h
  refine ⟨rfl, rfl, rfl, new, rfl, fun e he => ?_⟩
  obtain ⟨l, hl, inv, _, a, ha, hm⟩ := hnew e he
  unfold missingEdge at hm
  obtain ⟨cov, _, hm⟩ := bind_ok hm
  dsimp only at hm
  split at hm
  · cases hm
  · obtain ⟨g, _, hm⟩ := bind_ok hm
    cases hm
    exact ⟨rfl, rfl, rfl, ha, l, hl, rfl⟩

/-- **C28**, second part: an added loop is never enabled together with an existing input edge on the same action. -/
theorem C28_exclusive_partial (c c' : Component) (inputs : List String) (hc : c.Ok (dim F))
    (hg : GoodNaming c.decls.clocks)
    (hix : (c.decls.clocks.map (·.2)).Nodup) (hn : dim F = c.decls.clocks.length + 1) (ha : c.UpdatesAgree)
    (h : makeInputEnabled F c inputs = .ok c')
    (hcomp : ∀ e ∈ c.edges, ∃ t : Transition F, Transition.fromEdge c e = .ok t)
    (new : List Edge) (hnew : c'.edges = c.edges ++ new)
    (e : Edge) (he : e ∈ new) (e0 : Edge) (he0 : e0 ∈ c.edges) (hin : e0.sync = .input)
    (hsrc : e0.source = e.source) (hact : e0.action = e.action)
    (t t0 : Transition F) (ht : Transition.fromEdge c' e = .ok t) (ht0 : Transition.fromEdge c' e0 = .ok t0) (v : Val) :
    ¬ (CanTake t v ∧ CanTake t0 v) := by
  obtain ⟨new', rfl, hn', _⟩ := makeInputEnabled_spec h
  have : new = new' := by simpa using hnew.symm
  subst this
  obtain ⟨l, hl, inv, _, a, hain, hm⟩ := hn' e he
  obtain ⟨q1, q2, q3, q4, q5, q6, q7, q8⟩ := (missingEdge_spec hc ha hg hix hn hcomp hm).2 e rfl
  rintro ⟨h1, h2⟩
  refine ((q8 t ht v).1 h1.1).2 ⟨e0, List.mem_filter.2 ⟨he0, ?_⟩, t0, ht0, h2⟩
  simp [hin, hsrc, hact, q1, q4]

/-- An input-enabled component again satisfies the conditions on components. -/
theorem C28_ok (c c' : Component) (inputs : List String) (hc : c.Ok (dim F))
    (hg : GoodNaming c.decls.clocks)
    (hix : (c.decls.clocks.map (·.2)).Nodup) (hn : dim F = c.decls.clocks.length + 1) (ha : c.UpdatesAgree)
    (h : makeInputEnabled F c inputs = .ok c')
    (hcomp : ∀ e ∈ c.edges, ∃ t : Transition F, Transition.fromEdge c e = .ok t) :
    c'.Ok (dim F) ∧ c'.UpdatesAgree := by
  obtain ⟨new, rfl, hnew, _⟩ := makeInputEnabled_spec h
  have key : ∀ e ∈ new, e.update = none ∧ ∀ g, e.guard = some g → ∀ n, g.InDim n := by
    intro e he
    obtain ⟨l, hl, inv, _, a, hain, hm⟩ := hnew e he
    obtain ⟨_, _, _, _, q5, _, q7, _⟩ := (missingEdge_spec hc ha hg hix hn hcomp hm).2 e rfl
    exact ⟨q5, q7⟩
  refine ⟨⟨hc.decls, fun e he g hgg => ?_, hc.invs, fun e he us hus => ?_⟩, fun e he us hus => ?_⟩
  · rcases List.mem_append.1 he with he | he
    · exact hc.guards e he g hgg
    · exact ((key e he).2 g hgg 0).mono fun i hi => absurd hi.2 (by omega)
  · rcases List.mem_append.1 he with he | he
    · exact hc.updates e he us hus
    · rw [(key e he).1] at hus; cases hus
  · rcases List.mem_append.1 he with he | he
    · exact ha e he us hus
    · rw [(key e he).1] at hus; cases hus

/-! ## Determinism is kept -/

/-- The edge table of a compiled component, exactly. -/
theorem buildEdges_exact {c : Component} : ∀ {es : List Edge}
    {m m' : List (LocId × List (String × Transition F))}, CompComp.buildEdges c es m = .ok m' →
      ∀ k old, m.lookup k = some old → ∃ new, m'.lookup k = some (old ++ new) ∧
        List.Forall₂ (fun (e : Edge) y => y.1 = e.action ∧ Transition.fromEdge c e = .ok y.2)
          (es.filter fun e => LocId.simple e.source = k) new := by
  intro es
  induction es with
  | nil => intro m m' h k old hk; cases h; exact ⟨[], by simp [hk], .nil⟩
  | cons e es ih =>
    intro m m' h k old hk
    unfold CompComp.buildEdges at h
    obtain ⟨t, h1, h⟩ := bind_ok h
    obtain ⟨m1, h2, h⟩ := bind_ok h
    have push : ∀ {m m1 : List (LocId × List (String × Transition F))} {old}, m.lookup k = some old →
        CompComp.pushEdge (.simple e.source) (e.action, t) m = .ok m1 →
        m1.lookup k = some (old ++ if LocId.simple e.source = k then [(e.action, t)] else []) := by
      intro m
      induction m with
      | nil => intro m1 old h; cases h
      | cons q m ihm =>
        intro m1 old hlk hp
        obtain ⟨k', es'⟩ := q
        unfold CompComp.pushEdge at hp
        rw [List.lookup_cons] at hlk
        split at hp
        · rename_i hk'
          cases hp
          rw [List.lookup_cons]
          by_cases hkk : k = k'
          · subst hkk
            simp only [beq_self_eq_true] at hlk ⊢
            cases hlk
            rw [if_pos hk'.symm]
          · have : (k == k') = false := by simpa using hkk
            rw [this] at hlk
            simp only [this, hlk]
            rw [if_neg (by rw [← hk']; exact fun h => hkk h.symm)]
            simp
        · rename_i hk'
          obtain ⟨m2, hm2, hp⟩ := bind_ok hp
          cases hp
          rw [List.lookup_cons]
          by_cases hkk : k = k'
          · subst hkk
            simp only [beq_self_eq_true] at hlk ⊢
            cases hlk
            rw [if_neg (fun h => hk' h.symm)]
            simp
          · have : (k == k') = false := by simpa using hkk
            rw [this] at hlk
            simp only [this]
            exact ihm hlk hm2
    obtain ⟨new, hn, hf⟩ := ih h k _ (push hk h2)
    rw [List.append_assoc] at hn
    refine ⟨_, hn, ?_⟩
    rw [List.filter_cons]
    by_cases hs : LocId.simple e.source = k
    · simp only [hs, decide_true, if_true, List.singleton_append]
      exact .cons ⟨rfl, h1⟩ hf
    · simp only [hs, decide_false, Bool.false_eq_true, if_false, List.nil_append]
      exact hf

/-- The transitions from a location of a compiled component that is neither universal nor inconsistent. -/
theorem compile_next_exact {order : List (LocId × LocTree F) → List (LocId × LocTree F)} {c : Component}
    {ins outs : List String} {id : Nat}
    {x : CompComp F} (ho : ∀ l, (order l).Perm l) (h : CompComp.compileWith order c ins outs id = .ok x) {l : LocTree F}
    (hl : (Sys.comp x).IsLoc l) : ∃ loc ∈ c.locations, LocTree.simple c.decls loc = .ok l ∧
      ∃ es, x.edges.lookup l.id = some es ∧
        List.Forall₂ (fun (e : Edge) y => y.1 = e.action ∧ Transition.fromEdge c e = .ok y.2)
          (c.edges.filter fun e => e.source = loc.id) es := by
  obtain ⟨_, _, hlocs, _⟩ := compileWith_content ho h
  unfold CompComp.compileWith at h
  split at h
  · cases h
  obtain ⟨locs0, h1, h⟩ := bind_ok h
  obtain ⟨edges, h2, h⟩ := bind_ok h
  cases h
  obtain ⟨p, hp, rfl⟩ := hl
  obtain ⟨hid, loc, hloc, hs⟩ := hlocs p hp
  obtain ⟨inv, hp2, _⟩ := simple_spec hs
  have hk : p.2.id = .simple loc.id := by rw [hp2]; rfl
  obtain ⟨b1, _, _⟩ := buildLocations_spec h1
  have hlk : ((order locs0).map fun p => (p.1, ([] : List (String × Transition F)))).lookup p.1 = some [] := by
    refine lookup_of_mem ?_ (List.mem_map.2 ⟨p, hp, rfl⟩)
    rw [List.map_map]
    exact ((ho locs0).map _).nodup_iff.2 b1
  obtain ⟨new, hn, hf⟩ := buildEdges_exact h2 _ _ hlk
  refine ⟨loc, hloc, hs, new, by rw [hid]; exact hn, ?_⟩
  rw [← hid, hk] at hf
  simpa using hf

omit [ZoneLib F] in
theorem forall2_filter_action {P : Edge → Transition F → Prop} {a : String} : ∀ {es : List Edge}
    {ys : List (String × Transition F)}, List.Forall₂ (fun (e : Edge) y => y.1 = e.action ∧ P e y.2) es ys →
    List.Forall₂ P (es.filter fun e => e.action = a) ((ys.filter fun y => y.1 = a).map (·.2)) := by
  intro es ys h
  induction h with
  | nil => exact .nil
  | @cons e y es ys hy _ ih =>
    rw [List.filter_cons, List.filter_cons]
    by_cases ha : e.action = a
    · simp only [ha, hy.1, decide_true, if_true, List.map_cons]
      exact .cons hy.2 ih
    · simp only [ha, hy.1, decide_false, Bool.false_eq_true, if_false]
      exact ih

theorem pairwise_of_forall2 {α β : Type} {R : α → β → Prop} {S : α → α → Prop} {T : β → β → Prop}
    (hST : ∀ a a' b b', R a b → R a' b' → S a a' → T b b') : ∀ {l : List α} {m : List β},
    List.Forall₂ R l m → l.Pairwise S → m.Pairwise T := by
  intro l m h
  induction h with
  | nil => intro _; exact .nil
  | @cons a b l m hab hf ih =>
    intro hp
    obtain ⟨h1, h2⟩ := List.pairwise_cons.1 hp
    refine List.pairwise_cons.2 ⟨fun b' hb' => ?_, ih h2⟩
    obtain ⟨a', ha', hr⟩ := forall2_mem_right hf b' hb'
    exact hST a a' b b' hab hr (h1 a' ha')

theorem forall2_pairwise_left {α β : Type} {R : α → β → Prop} {S : α → α → Prop} {T : β → β → Prop}
    (hTS : ∀ a a' b b', R a b → R a' b' → T b b' → S a a') {l : List α} {m : List β}
    (h : List.Forall₂ R l m) (hp : m.Pairwise T) : l.Pairwise S :=
  pairwise_of_forall2 (R := fun b a => R a b) (fun b b' a a' h1 h2 h3 => hTS a a' b b' h1 h2 h3) h.flip hp

/-- At most one loop is added per location and input. -/
theorem new_pairwise {c c' : Component} {inputs : List String} (h : makeInputEnabled F c inputs = .ok c')
    (hl : (c.locations.map (·.id)).Nodup) (hi : inputs.Nodup) {new : List Edge} (hnew : c'.edges = c.edges ++ new) :
    new.Pairwise fun e e' => ¬ (e.source = e'.source ∧ e.action = e'.action) := by
  have one : ∀ {l : Location} {inv : F} {a : String} {e : Edge}, missingEdge F c l inv a = .ok (some e) →
      e.source = l.id ∧ e.action = a := by
    intro l inv a e hm
    unfold missingEdge at hm
    obtain ⟨cov, _, hm⟩ := bind_ok hm
    dsimp only at hm
    split at hm
    · cases hm
    · obtain ⟨g, _, hm⟩ := bind_ok hm
      cases hm
      exact ⟨rfl, rfl⟩
  unfold makeInputEnabled at h
  obtain ⟨ess, h1, h⟩ := bind_ok h
  cases h
  have : new = ess.flatten := by simpa using hnew.symm
  subst this
  have h1 := mapM_ok.1 h1
  have inner : ∀ (l : Location) (es : List Edge), (do
      let inv ← invZone F c l
      let es ← inputs.mapM (missingEdge F c l inv)
      Except.ok (es.filterMap id) : Res (List Edge)) = .ok es →
      (∀ e ∈ es, e.source = l.id) ∧ es.Pairwise fun e e' => ¬ (e.source = e'.source ∧ e.action = e'.action) := by
    intro l es h
    obtain ⟨inv, _, h⟩ := bind_ok h
    obtain ⟨rs, h2, h⟩ := bind_ok h
    cases h
    have h2 := mapM_ok.1 h2
    refine ⟨fun e he => ?_, ?_⟩
    · obtain ⟨r, hr, hre⟩ := List.mem_filterMap.1 he
      obtain ⟨a, _, hm⟩ := forall2_mem_right h2 r hr
      rw [id] at hre; subst hre
      exact (one hm).1
    · rw [List.pairwise_filterMap]
      refine pairwise_of_forall2 (S := fun a a' => a ≠ a') ?_ h2 hi
      rintro a a' r r' ha ha' hne e he e' he' ⟨_, h⟩
      rw [id] at he he'
      subst he; subst he'
      rw [(one ha).2, (one ha').2] at h
      exact hne h
  rw [List.pairwise_flatten]
  refine ⟨fun es hes => ?_, ?_⟩
  · obtain ⟨l, _, hl⟩ := forall2_mem_right h1 es hes
    exact (inner l es hl).2
  · refine pairwise_of_forall2 (S := fun l l' : Location => l.id ≠ l'.id) ?_ h1 (List.pairwise_map.1 hl)
    rintro l l' es es' hl hl' hne e he e' he' ⟨h, _⟩
    rw [(inner l es hl).1 e he, (inner l' es' hl').1 e' he'] at h
    exact hne h

/-- **C28**, consequence: if the component is deterministic in every state, so is the input-enabled one. -/
theorem C28_deterministic_partial (c c' : Component) (inputs : List String) (hc : c.Ok (dim F))
    (hg : GoodNaming c.decls.clocks)
    (hix : (c.decls.clocks.map (·.2)).Nodup) (hn : dim F = c.decls.clocks.length + 1) (ha : c.UpdatesAgree)
    (hids : (c.locations.map (·.id)).Nodup) (hinp : inputs.Nodup)
    (h : makeInputEnabled F c inputs = .ok c')
    (order : List (LocId × LocTree F) → List (LocId × LocTree F)) (ho : ∀ l, (order l).Perm l) (id : Nat)
    (x x' : CompComp F) (hx : CompComp.compile order c id = .ok x) (hx' : CompComp.compile order c' id = .ok x')
    (hdet : ∀ l, (Sys.comp x).IsLoc l → ∀ v, v ∈ InvSet l → (Sys.comp x).ts.DetAt l v)
    (l : LocTree F) (hl : (Sys.comp x').IsLoc l) (v : Val) (hv : v ∈ InvSet l) : (Sys.comp x').ts.DetAt l v := by
  obtain ⟨new, hc', hnew, _⟩ := makeInputEnabled_spec h
  have hedges : c'.edges = c.edges ++ new := by rw [hc']
  have hpw := new_pairwise h hids hinp hedges
  obtain ⟨i1, i2, i3, i4⟩ := compileWith_content ho hx
  obtain ⟨i1', i2', _, _⟩ := compileWith_content ho hx'
  have hcomp : ∀ e ∈ c.edges, ∃ t : Transition F, Transition.fromEdge c e = .ok t := by
    intro e he
    obtain ⟨t, ht, _⟩ := i4 e he
    exact ⟨t, ht⟩
  have hfe : ∀ e, Transition.fromEdge (F := F) c' e = Transition.fromEdge c e := by rw [hc']; exact fun e => rfl
  -- the locations are the same
  have hlocs : x.locations = x'.locations := by
    have hx1 := hx
    have hx2 := hx'
    unfold CompComp.compile CompComp.compileWith at hx1 hx2
    split at hx1
    · cases hx1
    split at hx2
    · cases hx2
    obtain ⟨locs, e1, hx1⟩ := bind_ok hx1
    obtain ⟨_, _, hx1⟩ := bind_ok hx1
    obtain ⟨locs', e2, hx2⟩ := bind_ok hx2
    obtain ⟨_, _, hx2⟩ := bind_ok hx2
    cases hx1; cases hx2
    rw [hc'] at e2
    have : locs = locs' := Except.ok.inj (e1.symm.trans e2)
    rw [this]
  have hlx : (Sys.comp x).IsLoc l := by
    obtain ⟨p, hp, he⟩ := hl
    exact ⟨p, by rw [hlocs]; exact hp, he⟩
  obtain ⟨loc, hloc, hs, es, hlk, hf⟩ := compile_next_exact ho hx hlx
  obtain ⟨loc', hloc', hs', es', hlk', hf'⟩ := compile_next_exact ho hx' hl
  have hname : loc'.id = loc.id := by
    obtain ⟨_, h1, _⟩ := simple_spec hs
    obtain ⟨_, h2, _⟩ := simple_spec hs'
    rw [h1] at h2
    simp only [LocTree.leaf.injEq, LocId.simple.injEq] at h2
    exact h2.1.symm
  rw [hname, hedges, List.filter_append] at hf'
  intro a trans hhas hnx
  have hhas' : (x'.inputs.contains a || x'.outputs.contains a) = true := hhas
  have hnx : CompComp.next x' l a = .ok trans := hnx
  unfold CompComp.next at hnx
  rw [hhas'] at hnx
  simp only [Bool.not_true, Bool.false_eq_true, if_false] at hnx
  split at hnx
  · cases hnx; simp
  rename_i huni
  split at hnx
  · cases hnx; simp
  rename_i hinc
  rw [hlk'] at hnx
  have hnx := (Except.ok.inj hnx).symm
  subst hnx
  have hF := forall2_filter_action (P := fun e t => Transition.fromEdge c' e = .ok t) (a := a) hf'
  rw [List.filter_append] at hF
  -- exclusion on the side of the edges
  let S : Edge → Edge → Prop := fun e e' => ∀ t t' : Transition F, Transition.fromEdge c e = .ok t →
    Transition.fromEdge c e' = .ok t' → ¬ (CanTake t v ∧ CanTake t' v)
  refine pairwise_of_forall2 (S := S) ?_ hF ?_
  · intro e e' t t' h1 h2 hS
    exact hS t t' (by rw [← hfe]; exact h1) (by rw [← hfe]; exact h2)
  have star : a ≠ "*" := by
    intro hst
    rw [Bool.or_eq_true] at hhas'
    rcases hhas' with hh | hh
    · rw [i1'] at hh
      have := List.contains_iff_mem.1 hh
      unfold Component.specificActions at this
      rw [mem_mkSet] at this
      obtain ⟨e, he, hea⟩ := List.mem_map.1 this
      have := (List.mem_filter.1 he).2
      rw [hea, hst] at this
      simp at this
    · rw [i2'] at hh
      have := List.contains_iff_mem.1 hh
      unfold Component.specificActions at this
      rw [mem_mkSet] at this
      obtain ⟨e, he, hea⟩ := List.mem_map.1 this
      have := (List.mem_filter.1 he).2
      rw [hea, hst] at this
      simp at this
  have inAct : ∀ (c : Component) (e : Edge) (s : SyncType), e ∈ c.edges → e.sync = s → e.action = a →
      a ∈ c.specificActions s := by
    intro c e s he hs hea
    unfold Component.specificActions
    rw [mem_mkSet]
    exact List.mem_map.2 ⟨e, List.mem_filter.2 ⟨he, by simp [hs, hea, star]⟩, hea⟩
  rw [List.pairwise_append]
  refine ⟨?_, ?_, ?_⟩
  · -- the old edges
    by_cases hold : (x.inputs.contains a || x.outputs.contains a) = true
    · have hn' : CompComp.next x l a = .ok ((es.filter fun e => e.1 = a).map (·.2)) := by
        unfold CompComp.next
        rw [hold]
        simp only [Bool.not_true, Bool.false_eq_true, if_false]
        rw [if_neg huni, if_neg, hlk]
        intro hi
        apply hinc
        rw [Bool.and_eq_true] at hi ⊢
        refine ⟨hi.1, ?_⟩
        have := List.contains_iff_mem.1 hi.2
        rw [i1] at this
        rw [i1', List.contains_iff_mem]
        unfold Component.specificActions at this ⊢
        rw [mem_mkSet] at this ⊢
        rw [hedges, List.filter_append, List.map_append]
        exact List.mem_append_left _ this
      have hd := hdet l hlx v hv a _ hold hn'
      refine forall2_pairwise_left ?_ (forall2_filter_action (P := fun e t => Transition.fromEdge c e = .ok t)
        (a := a) hf) hd
      intro e e' t t' h1 h2 h3 t1 t1' h4 h5
      rw [h1] at h4; rw [h2] at h5
      cases h4; cases h5
      exact h3
    · have hnone : (c.edges.filter fun e => e.source = loc.id).filter (fun e => e.action = a) = [] := by
        rw [List.filter_eq_nil_iff]
        intro e he hea
        have hea : e.action = a := by simpa using hea
        apply hold
        rw [Bool.or_eq_true, i1, i2, List.contains_iff_mem, List.contains_iff_mem]
        have hem := (List.mem_filter.1 he).1
        cases hsy : e.sync with
        | input => exact .inl (inAct c e .input hem hsy hea)
        | output => exact .inr (inAct c e .output hem hsy hea)
      rw [hnone]
      exact .nil
  · -- the new ones: at most one
    refine List.Pairwise.imp_of_mem ?_ ((hpw.filter _).filter _)
    intro e e' he he' hne
    refine absurd ⟨?_, ?_⟩ hne
    · have h1 := (List.mem_filter.1 (List.mem_filter.1 he).1).2
      have h2 := (List.mem_filter.1 (List.mem_filter.1 he').1).2
      simp only [decide_eq_true_eq] at h1 h2
      rw [h1, h2]
    · have h1 := (List.mem_filter.1 he).2
      have h2 := (List.mem_filter.1 he').2
      simp only [decide_eq_true_eq] at h1 h2
      rw [h1, h2]
  · intro e0 he0 e he t0 t ht0 ht hboth
    obtain ⟨he0', ha0⟩ := List.mem_filter.1 he0
    obtain ⟨he0, hs0⟩ := List.mem_filter.1 he0'
    obtain ⟨he', ha1⟩ := List.mem_filter.1 he
    obtain ⟨he, hs1⟩ := List.mem_filter.1 he'
    simp only [decide_eq_true_eq] at ha0 hs0 ha1 hs1
    have hesync : e.sync = .input := by
      obtain ⟨_, _, _, new', hn', hk⟩ := C28_kept c c' inputs h
      have : new = new' := by rw [hedges] at hn'; simpa using hn'
      subst this
      exact (hk e he).1
    have hmem : e ∈ c'.edges := by rw [hedges]; exact List.mem_append_right _ he
    have hin : a ∈ x'.inputs := by rw [i1']; exact inAct c' e .input hmem hesync ha1
    have hsync0 : e0.sync = .input := by
      cases hsy : e0.sync with
      | input => rfl
      | output =>
        exfalso
        have hout : a ∈ x'.outputs := by
          rw [i2']; exact inAct c' e0 .output (by rw [hedges]; exact List.mem_append_left _ he0) hsy ha0
        have hx2 := hx'
        unfold CompComp.compile CompComp.compileWith at hx2
        split at hx2
        · cases hx2
        rename_i hdis
        simp only [Bool.not_eq_true, Bool.not_eq_false'] at hdis
        rw [i1'] at hin
        rw [i2'] at hout
        exact setDisjoint_iff.1 hdis a hin hout
    exact C28_exclusive_partial c c' inputs hc hg hix hn ha h hcomp new hedges e he e0 he0 hsync0 (hs0.trans hs1.symm)
      (ha0.trans ha1.symm) t t0 (by rw [hfe]; exact ht) (by rw [hfe]; exact ht0) v ⟨hboth.2, hboth.1⟩

/-- The hypotheses hold for the example of C27: four loops are added, one on an input with an existing edge. -/
example : makeInputEnabled Fed2 exShy ["a", "b"] = .ok exShyEnabled ∧
    (∀ e ∈ exShy.edges, ∃ t : Transition Fed2, Transition.fromEdge exShy e = .ok t) ∧
    ∃ e ∈ exShyEnabled.edges.drop 2, ∃ e0 ∈ exShy.edges, e0.sync = .input ∧ e0.source = e.source ∧
      e0.action = e.action := by
  refine ⟨exShy_enabled, fun e he => ?_, by decide⟩
  simp only [exShy, List.mem_cons, List.not_mem_nil, or_false] at he
  rcases he with rfl | rfl
  · exact ⟨_, getOk_eq (by decide +kernel)⟩
  · exact ⟨_, getOk_eq (by decide +kernel)⟩

def sysShy : CompComp Fed2 := getOk (CompComp.compile id exShy 0) (by decide +kernel)

/-- The remaining hypotheses of `C28_deterministic_partial` hold for it. -/
example : (exShy.locations.map (·.id)).Nodup ∧ CompComp.compile id exShy 0 = .ok sysShy ∧
    (CompComp.compile id exShyEnabled 0 : Res (CompComp Fed2)).toBool = true ∧
    ∀ l, (Sys.comp sysShy).IsLoc l → ∀ v, v ∈ InvSet l → (Sys.comp sysShy).ts.DetAt l v := by
  refine ⟨by decide, getOk_eq _, by decide +kernel, ?_⟩
  intro l hl v _ a trans hh hn
  have hact : a = "a" ∨ a = "c" := by
    have h1 : sysShy.inputs = ["a"] := by decide +kernel
    have h2 : sysShy.outputs = ["c"] := by decide +kernel
    have hh : (sysShy.inputs.contains a || sysShy.outputs.contains a) = true := hh
    rw [h1, h2] at hh
    simpa using hh
  have hlen : ∀ p ∈ sysShy.locations, ∀ a ∈ ["a", "c"],
      (match CompComp.next sysShy p.2 a with | .ok ts => decide (ts.length ≤ 1) | .error _ => true) = true := by
    decide +kernel
  obtain ⟨p, hp, rfl⟩ := hl
  have := hlen p hp a (by simpa using hact)
  have hn : CompComp.next sysShy p.2 a = .ok trans := hn
  rw [hn] at this
  have this : trans.length ≤ 1 := by simpa using this
  match trans, this with
  | [], _ => exact .nil
  | [t], _ => simp

/-- An edge that assigns 5 and then 0 to the clock, into a location where the clock is at most 3. -/
def exBack : Component := ⟨"S", ⟨[], [("x", 1)]⟩,
  [⟨"L", none, .initial, "NORMAL"⟩, ⟨"M", some (.le (.var "x") (.int 3)), .normal, "NORMAL"⟩],
  [⟨"e", "L", "M", .input, none, some [⟨"x", .int 5⟩, ⟨"x", .int 0⟩], "a"⟩,
   ⟨"f", "M", "L", .input, none, none, "a"⟩]⟩

/-- The full property is false: an edge that assigns a clock twice is taken to be disabled everywhere, and a loop is
added that is enabled together with it. -/
theorem C28_violated_double_update : ∃ (e e0 : Edge) (t t0 : Transition Fed2),
    makeInputEnabled Fed2 exBack ["a"] = .ok { exBack with edges := exBack.edges ++ [e] } ∧
    e0 ∈ exBack.edges ∧ e0.sync = .input ∧ e0.source = e.source ∧ e0.action = e.action ∧
    Transition.fromEdge exBack e = .ok t ∧ Transition.fromEdge exBack e0 = .ok t0 ∧
    CanTake t zeroVal ∧ CanTake t0 zeroVal := by
  refine ⟨⟨"input_L_a", "L", "L", .input, none, none, "a"⟩,
    ⟨"e", "L", "M", .input, none, some [⟨"x", .int 5⟩, ⟨"x", .int 0⟩], "a"⟩,
    ⟨.simple "input_L_a", univ, .leaf (.simple "L") none .initial, []⟩,
    ⟨.simple "e", univ, .leaf (.simple "M")
      (some (getOk (applyConstraints exBack.decls (.le (.var "x") (.int 3)) univ) (by decide +kernel))) .normal,
      [⟨1, 5⟩, ⟨1, 0⟩]⟩, by decide +kernel, .head _, rfl, rfl, rfl, rfl, rfl, ⟨?_, ?_⟩, ?_, ?_⟩
  · rw [den_univ]; exact Sys.zeroVal_valid
  · rintro i ⟨⟩
  · rw [den_univ]; exact Sys.zeroVal_valid
  · rintro i ⟨⟩
    have h0 : runUpdates [⟨1, 5⟩, ⟨1, 0⟩] zeroVal = zeroVal := by
      funext i
      simp only [runUpdates, assign, zeroVal]
      split <;> simp_all
    rw [h0]
    have := OkOrOvf.of_ok (C01_guard_exact_partial (F := Fed2) exBack.decls (by unfold Decls.InDim Decls.ClocksIn; decide)
      (.le (.var "x") (.int 3)) (by simp [BoolE.InDim, BoolE.ClocksIn, Arith.ClocksIn])
      (.posConst (.chain (.clock (.inr ⟨_, rfl, rfl⟩))) rfl) univ) (getOk_eq (by decide +kernel))
    rw [this, den_univ]
    refine ⟨Sys.zeroVal_valid, 0, 3, ?_, ?_, by norm_num⟩ <;> simp [value, exBack, zeroVal]

end Reveaal
