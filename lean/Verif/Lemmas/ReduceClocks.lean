import Verif.Lemmas.ReducedSys

/-!
# What the clock reduction does to a recipe, in one step
-/

namespace Reveaal
open ZoneLib

/-- The clock that stands for a clock after all replacements. -/
def standIn : List (Nat × List Nat) → Nat → Nat
  | [], x => x
  | (m, cs) :: reps, x => standIn reps (if cs.contains x then m else x)

theorem without_clocks {c : Component} {is : List Nat} (hn : (c.decls.clocks.map (·.1)).Nodup) :
    (c.without is).decls.clocks = c.decls.clocks.filter fun p => !(is.contains p.2) := by
  show List.filter _ _ = _
  refine List.filter_congr fun p hp => ?_
  rw [Bool.eq_iff_iff]
  simp only [Bool.not_eq_true', List.contains_eq_mem, decide_eq_false_iff_not, Decls.mem_namesOf]
  constructor
  · exact fun h hi => h ⟨p.2, hi, hp⟩
  · rintro h ⟨i, hi, hm⟩
    have := congrArg Prod.snd (List.inj_on_of_nodup_map hn hm hp rfl)
    dsimp only at this
    exact h (this ▸ hi)

theorem without_names {c : Component} {is : List Nat} (hn : (c.decls.clocks.map (·.1)).Nodup) :
    ((c.without is).decls.clocks.map (·.1)).Nodup :=
  hn.sublist ((List.filter_sublist).map _)

theorem map_reshape_id (r : Recipe) : r.reshape (fun c => c) (fun q => q) = r := by
  induction r with
  | component c i => rfl
  | composition l r ihl ihr => simp only [Recipe.reshape, ihl, ihr]
  | conjunction l r ihl ihr => simp only [Recipe.reshape, ihl, ihr]
  | quotient l r q ihl ihr => simp only [Recipe.reshape, ihl, ihr]

theorem mapComponents_id {f : Component → Component} {r : Recipe} (h : ∀ c ∈ r.components, f c = c) :
    r.mapComponents f = r := by
  rw [mapComponents_congr r (g := fun c => c) h, Recipe.mapComponents_eq]
  exact map_reshape_id r

theorem mapComponents_mapComponents (f g : Component → Component) (r : Recipe) :
    (r.mapComponents f).mapComponents g = r.mapComponents (g ∘ f) := by
  rw [Recipe.mapComponents_eq, Recipe.mapComponents_eq, Recipe.mapComponents_eq, Recipe.reshape_reshape]
  rfl

theorem mapComponents_components (f : Component → Component) (r : Recipe) :
    (r.mapComponents f).components = r.components.map f := by
  rw [Recipe.mapComponents_eq, Recipe.reshape_components]

/-- The clocks have different indices, and in every component different names. -/
structure Recipe.Distinct (r : Recipe) : Prop where
  indices : r.clockIndices.Nodup
  names : ∀ c ∈ r.components, (c.decls.clocks.map (·.1)).Nodup

theorem Recipe.clockIndices_append {x l r : Recipe} (h : x.components = l.components ++ r.components) :
    x.clockIndices = l.clockIndices ++ r.clockIndices := by
  unfold Recipe.clockIndices
  rw [h]
  exact List.flatMap_append

theorem any_index {c : Component} {i : Nat} : (c.decls.clocks.any fun p => decide (p.2 = i)) = true ↔
    i ∈ c.decls.clocks.map (·.2) := by
  rw [List.any_eq_true, List.mem_map]
  constructor
  · rintro ⟨p, hp, h⟩
    exact ⟨p, hp, of_decide_eq_true h⟩
  · rintro ⟨p, hp, h⟩
    exact ⟨p, hp, decide_eq_true h⟩

theorem modifyFirst_none {i : Nat} : ∀ {r : Recipe}, i ∉ r.clockIndices →
    r.modifyFirst (fun c => c.decls.clocks.any fun p => p.2 = i) (·.removeClock i) = .ok none
  | .composition l r, h | .conjunction l r, h | .quotient l r _, h => by
    rw [Recipe.clockIndices_append (l := l) (r := r) rfl, List.mem_append, not_or] at h
    unfold Recipe.modifyFirst
    rw [modifyFirst_none h.1, ok_bind]
    dsimp only
    rw [modifyFirst_none h.2, ok_bind]
    rfl
  | .component c n, h => by
    have e : (Recipe.component c n).clockIndices = c.decls.clocks.map (·.2) := by
      simp [Recipe.clockIndices, Recipe.components]
    rw [e] at h
    unfold Recipe.modifyFirst
    rw [if_neg (fun hh => h (any_index.1 hh))]

theorem without_not {r : Recipe} {i : Nat} (h : i ∉ r.clockIndices) :
    r.mapComponents (Component.without [i]) = r := by
  refine mapComponents_id fun c hc => Component.without_other fun p hp hi => ?_
  rw [List.mem_singleton] at hi
  exact h (List.mem_flatMap.2 ⟨c, hc, List.mem_map.2 ⟨p, hp, hi⟩⟩)

theorem modifyFirst_some {i : Nat} : ∀ {r : Recipe}, r.clockIndices.Nodup → i ∈ r.clockIndices →
    r.modifyFirst (fun c => c.decls.clocks.any fun p => p.2 = i) (·.removeClock i) =
      .ok (some (r.mapComponents (Component.without [i])))
  | .composition l r, hd, h | .conjunction l r, hd, h | .quotient l r _, hd, h => by
    rw [Recipe.clockIndices_append (l := l) (r := r) rfl] at h hd
    rw [List.nodup_append'] at hd
    unfold Recipe.modifyFirst Recipe.mapComponents
    by_cases hl : i ∈ l.clockIndices
    · rw [modifyFirst_some hd.1 hl, ok_bind]
      dsimp only
      rw [without_not (r := r) fun hr => hd.2.2 hl hr]
    · have hr := (List.mem_append.1 h).resolve_left hl
      rw [modifyFirst_none hl, ok_bind]
      dsimp only
      rw [modifyFirst_some hd.2.1 hr, ok_bind, without_not (r := l) hl]
      rfl
  | .component c n, hd, h => by
    have e : (Recipe.component c n).clockIndices = c.decls.clocks.map (·.2) := by
      simp [Recipe.clockIndices, Recipe.components]
    rw [e] at h hd
    unfold Recipe.modifyFirst
    rw [if_pos (any_index.2 h), removeClock_eq hd h]
    rfl

theorem clockIndices_without {r : Recipe} (hn : ∀ c ∈ r.components, (c.decls.clocks.map (·.1)).Nodup)
    (is : List Nat) : (r.mapComponents (Component.without is)).clockIndices =
      r.clockIndices.filter fun i => !(is.contains i) := by
  unfold Recipe.clockIndices
  rw [mapComponents_components, List.flatMap_map, List.filter_flatMap]
  have : ∀ l : List Component, (∀ c ∈ l, (c.decls.clocks.map (·.1)).Nodup) →
      (l.flatMap fun c => (c.without is).decls.clocks.map (·.2)) =
        l.flatMap fun c => (c.decls.clocks.map (·.2)).filter fun i => !(is.contains i) := by
    intro l hl
    induction l with
    | nil => rfl
    | cons c l ih =>
      rw [List.flatMap_cons, List.flatMap_cons, ih fun c hc => hl c (by simp [hc]), without_clocks (hl c (by simp)),
        List.filter_map]
      rfl
  exact this _ hn

theorem Recipe.Distinct.without {r : Recipe} (h : r.Distinct) (is : List Nat) :
    (r.mapComponents (Component.without is)).Distinct := by
  refine ⟨?_, fun c hc => ?_⟩
  · rw [clockIndices_without h.names]
    exact h.indices.filter _
  · rw [mapComponents_components] at hc
    obtain ⟨c0, hc0, rfl⟩ := List.mem_map.1 hc
    exact without_names (h.names c0 hc0)

/-- Removing clocks: if it succeeds, the clocks were there, and they are gone. -/
theorem reduceClocks_removes : ∀ {rem : List Nat} {r r' : Recipe}, r.Distinct →
    r.reduceClocks (rem.map .remove) = .ok r' →
    r' = r.mapComponents (Component.without rem) ∧ (∀ i ∈ rem, i ∈ r.clockIndices) ∧ rem.Nodup
  | [], r, r', _, h => by
    cases h
    refine ⟨?_, fun i hi => (by cases hi), List.nodup_nil⟩
    rw [mapComponents_id fun c _ => Component.without_other fun p _ hp => by cases hp]
  | i :: rem, r, r', hd, h => by
    unfold Recipe.reduceClocks at h
    rw [List.map_cons, List.foldlM_cons] at h
    obtain ⟨r1, h1, h⟩ := bind_ok h
    unfold Recipe.reduceClock at h1
    by_cases hi : i ∈ r.clockIndices
    · dsimp only at h1
      rw [modifyFirst_some hd.indices hi, ok_bind] at h1
      cases h1
      obtain ⟨h2, h3, h4⟩ := reduceClocks_removes (hd.without [i]) h
      rw [clockIndices_without hd.names] at h3
      refine ⟨?_, fun j hj => ?_, List.nodup_cons.2 ⟨fun hm => ?_, h4⟩⟩
      · rw [h2, mapComponents_mapComponents]
        exact mapComponents_congr r fun c _ => Component.without_without [i] rem c
      · rcases List.mem_cons.1 hj with rfl | hj
        · exact hi
        · exact (List.mem_filter.1 (h3 j hj)).1
      · have := (List.mem_filter.1 (h3 i hm)).2
        simp at this
    · dsimp only at h1
      rw [modifyFirst_none hi, ok_bind] at h1
      cases h1

/-- Removing clocks that are there succeeds. -/
theorem reduceClocks_removes_ok : ∀ {rem : List Nat} {r : Recipe}, r.Distinct → (∀ i ∈ rem, i ∈ r.clockIndices) →
    rem.Nodup → ∃ r', r.reduceClocks (rem.map .remove) = .ok r'
  | [], r, _, _, _ => ⟨r, rfl⟩
  | i :: rem, r, hd, hi, hn => by
    rw [List.nodup_cons] at hn
    obtain ⟨r', h⟩ := reduceClocks_removes_ok (rem := rem) (hd.without [i]) (fun j hj => by
      rw [clockIndices_without hd.names]
      refine List.mem_filter.2 ⟨hi j (by simp [hj]), ?_⟩
      simp only [List.contains_eq_mem, List.mem_singleton, Bool.not_eq_true', decide_eq_false_iff_not]
      rintro rfl
      exact hn.1 hj) hn.2
    refine ⟨r', ?_⟩
    unfold Recipe.reduceClocks at h ⊢
    rw [List.map_cons, List.foldlM_cons]
    unfold Recipe.reduceClock
    dsimp only
    rw [modifyFirst_some hd.indices (hi i (by simp)), ok_bind]
    exact h

/-- Replacing clocks. -/
theorem reduceClocks_replaces : ∀ (reps : List (Nat × List Nat)) (r : Recipe),
    r.reduceClocks (reps.map fun p => .replace p.1 p.2) = .ok (r.mapComponents (Component.withClocks (standIn reps)))
  | [], r => by
    show Except.ok r = _
    rw [mapComponents_id]
    intro c _
    unfold Component.withClocks
    have : (fun p : String × Nat => (p.1, standIn [] p.2)) = id := rfl
    rw [this, List.map_id]
  | (m, cs) :: reps, r => by
    have ih := reduceClocks_replaces reps (r.mapComponents (·.replaceClock m cs))
    unfold Recipe.reduceClocks at ih ⊢
    rw [List.map_cons, List.foldlM_cons]
    show (do let x ← (Except.ok (r.mapComponents (·.replaceClock m cs)) : Res Recipe); _) = _
    rw [ok_bind, ih, mapComponents_mapComponents]
    congr 1
    refine mapComponents_congr r fun c _ => ?_
    show Component.withClocks (standIn reps) (c.replaceClock m cs) = _
    unfold Component.withClocks Component.replaceClock
    dsimp only
    rw [List.map_map]
    congr 2
    refine List.map_congr_left fun p _ => ?_
    show (_, standIn reps _) = (_, standIn reps (if cs.contains p.2 then m else p.2))
    by_cases hc : cs.contains p.2 = true
    · simp only [hc, if_true]
    · simp only [hc, if_false, Bool.false_eq_true]

/-- The whole reduction of one recipe. -/
theorem reduceClocks_eq {rem : List Nat} {reps : List (Nat × List Nat)} {r r' : Recipe} (hd : r.Distinct)
    (h : r.reduceClocks (rem.map .remove ++ reps.map fun p => .replace p.1 p.2) = .ok r') :
    r' = r.mapComponents (Component.reduced rem (standIn reps)) ∧ (∀ i ∈ rem, i ∈ r.clockIndices) ∧ rem.Nodup := by
  unfold Recipe.reduceClocks at h
  rw [List.foldlM_append] at h
  obtain ⟨r1, h1, h2⟩ := bind_ok h
  obtain ⟨rfl, h3, h4⟩ := reduceClocks_removes hd h1
  have := (reduceClocks_replaces reps (r.mapComponents (Component.without rem)))
  unfold Recipe.reduceClocks at this
  rw [this, mapComponents_mapComponents] at h2
  cases h2
  exact ⟨rfl, h3, h4⟩

theorem reduceClocks_ok {rem : List Nat} {reps : List (Nat × List Nat)} {r : Recipe} (hd : r.Distinct)
    (hi : ∀ i ∈ rem, i ∈ r.clockIndices) (hn : rem.Nodup) :
    r.reduceClocks (rem.map .remove ++ reps.map fun p => .replace p.1 p.2) =
      .ok (r.mapComponents (Component.reduced rem (standIn reps))) := by
  obtain ⟨r1, h1⟩ := reduceClocks_removes_ok hd hi hn
  have h2 := reduceClocks_replaces reps r1
  have h3 : r.reduceClocks (rem.map .remove ++ reps.map fun p => .replace p.1 p.2) =
      .ok (r1.mapComponents (Component.withClocks (standIn reps))) := by
    unfold Recipe.reduceClocks at h1 h2 ⊢
    rw [List.foldlM_append, h1, ok_bind]
    exact h2
  rw [h3, (reduceClocks_eq hd h3).1]

theorem withClocks_withClocks (f g : Nat → Nat) (c : Component) :
    (c.withClocks f).withClocks g = c.withClocks (g ∘ f) := by
  unfold Component.withClocks
  dsimp only
  rw [List.map_map]
  rfl

theorem mapComponents_reduced (rem : List Nat) (f g : Nat → Nat) (r : Recipe) :
    (r.mapComponents (Component.reduced rem f)).mapComponents (Component.withClocks g) =
      r.mapComponents (Component.reduced rem (g ∘ f)) := by
  rw [mapComponents_mapComponents]
  exact mapComponents_congr r fun c _ => withClocks_withClocks f g _

theorem clockIndices_reduced {r : Recipe} (hn : ∀ c ∈ r.components, (c.decls.clocks.map (·.1)).Nodup)
    (rem : List Nat) (f : Nat → Nat) : (r.mapComponents (Component.reduced rem f)).clockIndices =
      (r.clockIndices.filter fun i => !(rem.contains i)).map f := by
  rw [← clockIndices_without hn]
  unfold Recipe.clockIndices
  rw [mapComponents_components, mapComponents_components, List.flatMap_map, List.flatMap_map, List.map_flatMap]
  congr 1
  funext c
  show List.map _ (List.map _ _) = _
  rw [List.map_map, List.map_map]
  rfl

/-! ## Stand-ins -/

/-- The groups of replaced clocks do not interfere. -/
structure GoodReps (reps : List (Nat × List Nat)) : Prop where
  nodup : (reps.flatMap (·.2)).Nodup
  kept : ∀ p ∈ reps, p.1 ∉ reps.flatMap (·.2)

theorem GoodReps.tail {p : Nat × List Nat} {reps : List (Nat × List Nat)} (h : GoodReps (p :: reps)) :
    GoodReps reps := by
  refine ⟨?_, fun x hx hm => h.kept x (by simp [hx]) (by rw [List.flatMap_cons]; exact List.mem_append_right _ hm)⟩
  have := h.nodup
  rw [List.flatMap_cons, List.nodup_append'] at this
  exact this.2.1

theorem standIn_kept : ∀ {reps : List (Nat × List Nat)} {x : Nat}, x ∉ reps.flatMap (·.2) → standIn reps x = x
  | [], _, _ => rfl
  | (m, cs) :: reps, x, h => by
    rw [List.flatMap_cons, List.mem_append, not_or] at h
    unfold standIn
    rw [if_neg (by simpa using h.1)]
    exact standIn_kept h.2

theorem standIn_gone : ∀ {reps : List (Nat × List Nat)}, GoodReps reps → ∀ {p : Nat × List Nat}, p ∈ reps →
    ∀ {x : Nat}, x ∈ p.2 → standIn reps x = p.1
  | (m, cs) :: reps, h, p, hp, x, hx => by
    have hnd := h.nodup
    rw [List.flatMap_cons, List.nodup_append'] at hnd
    unfold standIn
    rcases List.mem_cons.1 hp with rfl | hp
    · rw [if_pos (by simpa using hx)]
      refine standIn_kept fun hm => h.kept (m, cs) (by simp) ?_
      rw [List.flatMap_cons]
      exact List.mem_append_right _ hm
    · have hx' : x ∈ reps.flatMap (·.2) := List.mem_flatMap.2 ⟨p, hp, hx⟩
      rw [if_neg (by
        simp only [List.contains_eq_mem, decide_eq_true_eq]
        exact fun hm => hnd.2.2 hm hx')]
      exact standIn_gone h.tail hp hx

theorem standIn_cases {reps : List (Nat × List Nat)} (h : GoodReps reps) (x : Nat) :
    (x ∉ reps.flatMap (·.2) ∧ standIn reps x = x) ∨ ∃ p ∈ reps, x ∈ p.2 ∧ standIn reps x = p.1 := by
  by_cases hx : x ∈ reps.flatMap (·.2)
  · obtain ⟨p, hp, hxp⟩ := List.mem_flatMap.1 hx
    exact .inr ⟨p, hp, hxp, standIn_gone h hp hxp⟩
  · exact .inl ⟨hx, standIn_kept hx⟩

theorem standIn_not_gone {reps : List (Nat × List Nat)} (h : GoodReps reps) (x : Nat) :
    standIn reps x ∉ reps.flatMap (·.2) := by
  rcases standIn_cases h x with ⟨h1, h2⟩ | ⟨p, hp, _, h2⟩
  · rwa [h2]
  · rw [h2]
    exact h.kept p hp

end Reveaal
