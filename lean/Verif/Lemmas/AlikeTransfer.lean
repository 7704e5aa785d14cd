import Verif.Lemmas.ReduceMap
import Verif.Lemmas.Convex
import Verif.Props.C54
import Verif.Props.C55

/-!
# What carries over from a system to the system after clock reduction
-/

namespace Reveaal
open ZoneLib
variable {F G : Type} [ZoneLib F] [ZoneLib G]

theorem NoConflict.lastValue {us : List CUpdate} (h : NoConflict us) {u : CUpdate} (hu : u ∈ us) :
    ClockMap.lastValue us u.clock = some u.value := by
  have key : ∀ (us : List CUpdate) (o : Option Int), (u ∈ us ∨ o.isSome) →
      (us.foldl (fun o x => if x.clock = u.clock then some x.value else o) o).isSome := by
    intro us
    induction us with
    | nil => intro o h; simpa using h
    | cons a us ih =>
      intro o h
      rw [List.foldl_cons]
      refine ih _ ?_
      rw [List.mem_cons] at h
      rcases h with (rfl | h) | h
      · exact .inr (by simp)
      · exact .inl h
      · refine .inr ?_
        split
        · rfl
        · exact h
  obtain ⟨v, hv⟩ := Option.isSome_iff_exists.1 (key us none (.inl hu))
  have hv : ClockMap.lastValue us u.clock = some v := hv
  obtain ⟨w, hw, h1, h2⟩ := lastValue_mem hv
  rw [hv, ← h2, h w hw u hu h1]

theorem NoConflict.map {ρ : ClockMap} {us : List CUpdate} (hi : ρ.Coherent us) (h : NoConflict us) :
    NoConflict (ρ.updates us) := by
  intro u hu u' hu' e
  obtain ⟨w, hw, h1, h2⟩ := ClockMap.mem_updates.1 hu
  obtain ⟨w', hw', h1', h2'⟩ := ClockMap.mem_updates.1 hu'
  rw [← h2, ← h2']
  rw [e] at h1
  have := hi _ _ _ h1 h1'
  rw [h.lastValue hw, h.lastValue hw'] at this
  exact Option.some.inj this

section
variable {ρ : ClockMap} {s : Sys F} {s' : Sys G}

/-- A state of the reduced system comes from a state of the original one. -/
theorem Sys.Alike.reach_back (hs : s.Accepted) (hs' : s'.Accepted) (h : Sys.Alike ρ s s') (hf : ρ.Fits (dim F) (dim G))
    (hco : ∀ l a ts t, s.Linked l → s.hasAction a = true → s.next l a = .ok ts → t ∈ ts → ρ.Coherent t.updates)
    {m : LocTree G} {w : Val} (hr : s'.ts.Reach m w) : ∃ l v, s.ts.Reach l v ∧ LocAlike ρ l m ∧ ρ.Agree v w := by
  have hb := h.bisim hs hf hco
  obtain ⟨l, v, h1, h2, h3⟩ := hb.symm.reach hs'.good hs.good (fun m hm => by
    obtain ⟨o, ho, _⟩ := hs.good.initial
    rcases h.initial ho with ⟨_, h2⟩ | ⟨l, l', rfl, h2, h3⟩
    · rw [show s'.ts.initialLoc = s'.initialLoc from rfl, h2] at hm; cases hm
    · rw [show s'.ts.initialLoc = s'.initialLoc from rfl, h2] at hm; cases hm
      exact ⟨l, ho, .init ho, h3⟩) hr
  exact ⟨l, v, h1, h2.2, h3⟩

/-- So do its moves. -/
theorem Sys.Alike.move_back (hs : s.Accepted) (h : Sys.Alike ρ s s') (hf : ρ.Fits (dim F) (dim G))
    {l : LocTree F} {m : LocTree G} (hl : s.IsLoc l) (hlm : LocAlike ρ l m) {a : String} (ha : s'.ts.hasAction a = true)
    {ts' : List (Transition G)} (hn : s'.ts.next m a = .ok ts') {t' : Transition G} (ht : t' ∈ ts') :
    s.ts.hasAction a = true ∧ ∃ ts t, s.ts.next l a = .ok ts ∧ t ∈ ts ∧ TransAlike ρ t t' := by
  have ha0 : s.hasAction a = true := (h.hasAction a).symm.trans ha
  obtain ⟨ts, hn0, _⟩ := hs.good.next l a hl ha0
  obtain ⟨ts1, hn1, hts⟩ := Sys.Alike.next hf h hl hlm hn0
  have hn : s'.next m a = .ok ts' := hn
  rw [hn1] at hn; cases hn
  obtain ⟨t, ht0, htt⟩ := forall2_mem_right hts t' ht
  exact ⟨ha0, ts, t, hn0, ht0, htt⟩

theorem Sys.Alike.updatesAgree (hs : s.Accepted) (hs' : s'.Accepted) (h : Sys.Alike ρ s s')
    (hf : ρ.Fits (dim F) (dim G))
    (hco : ∀ l a ts t, s.Linked l → s.hasAction a = true → s.next l a = .ok ts → t ∈ ts → ρ.Coherent t.updates)
    (hu : s.ts.UpdatesAgree) : s'.ts.UpdatesAgree := by
  intro m w a ts' hr ha hn t' ht'
  obtain ⟨l, v, h1, h2, _⟩ := h.reach_back hs hs' hf hco hr
  obtain ⟨ha0, ts, t, h4, h5, h6⟩ := h.move_back hs hf (hs.good.reach h1).1 h2 ha hn ht'
  rw [h6.updates]
  exact (hu l v a ts h1 ha0 h4 t h5).map (hco l a ts t (Sys.linked_of_reach h1) ha0 h4 h5)

theorem LocAlike.convex {l : LocTree F} {m : LocTree G} (h : LocAlike ρ l m) (hf : ρ.Fits (dim F) (dim G))
    (hc : TimeConvex l) : TimeConvex m := by
  intro w d e hw h0 hd hde he
  obtain ⟨v, hv, ha⟩ := hf.partner hw
  have key : ∀ d, 0 ≤ d → (delay (dim F) v d ∈ InvSet l ↔ delay (dim G) w d ∈ InvSet m) := fun d hd =>
    h.inv (delay_valid hv hd) (delay_valid hw hd) (ha.delay hf d)
  exact (key d hd).1 (hc v d e hv ((h.inv hv hw ha).2 h0) hd hde ((key e (hd.trans hde)).2 he))

theorem LocAlike.pastClosed {l : LocTree F} {m : LocTree G} (h : LocAlike ρ l m) (hf : ρ.Fits (dim F) (dim G))
    (hc : PastClosed l) : PastClosed m := by
  intro w d hw hd he
  obtain ⟨v, hv, ha⟩ := hf.partner hw
  exact (h.inv hv hw ha).1 (hc v d hv hd
    ((h.inv (delay_valid hv hd) (delay_valid hw hd) (ha.delay hf d)).2 he))

theorem Sys.Alike.targetsOpen (hs : s.Accepted) (hs' : s'.Accepted) (h : Sys.Alike ρ s s')
    (hf : ρ.Fits (dim F) (dim G))
    (hco : ∀ l a ts t, s.Linked l → s.hasAction a = true → s.next l a = .ok ts → t ∈ ts → ρ.Coherent t.updates)
    (ho : s.ts.TargetsOpen) : s'.ts.TargetsOpen := by
  intro m w a ts' hr ha hn t' ht' hg
  obtain ⟨l, v, h1, h2, h3⟩ := h.reach_back hs hs' hf hco hr
  obtain ⟨hl, hv⟩ := hs.good.reach h1
  have hw := (hs'.good.reach hr).2
  obtain ⟨ha0, ts, t, h4, h5, h6⟩ := h.move_back hs hf hl h2 ha hn ht'
  have hok := (hs.good.next_ok hl ha0 h4 t h5).2.upd
  have hok' : UpdatesOk t'.updates (dim G) := by rw [h6.updates]; exact ρ.updatesOk hf hok
  have := ho l v a ts h1 ha0 h4 t h5 ((h6.guard v w hv hw h3).2 hg)
  refine (h6.target.inv (runUpdates_valid hok hv) (runUpdates_valid hok' hw) ?_).1 this
  rw [h6.updates]
  exact h3.updates (hco l a ts t (Sys.linked_of_reach h1) ha0 h4 h5)

/-- Delays that are allowed initially stay allowed. -/
theorem TS.Indistinguishable.initial_delay {V : Val → Val → Prop} (h : s.ts.Indistinguishable s'.ts V)
    {l : LocTree F} (hl : s.ts.initialLoc = .ok (some l)) {m : LocTree G} (hm : s'.ts.initialLoc = .ok (some m)) {d : ℝ} :
    TS.CanDelay l zeroVal d ↔ TS.CanDelay m zeroVal d := by
  obtain ⟨R, h1, h2, _⟩ := h.related
  rcases h2 with ⟨a, _⟩ | ⟨l', m', a, b, c⟩
  · rw [a] at hl; cases hl
  · rw [a] at hl; rw [b] at hm
    cases hl; cases hm
    exact ⟨fun hd => h1.canDelay c Sys.zeroVal_valid Sys.zeroVal_valid h1.zero hd,
      fun hd => h1.symm.canDelay c Sys.zeroVal_valid Sys.zeroVal_valid h1.zero hd⟩

end

/-- The clocks of a compiled recipe. -/
theorem Recipe.compile_clocks : ∀ {r : Recipe} {env : CompileEnv F} {i j : Nat} {s : Sys F}, r.compile env i = .ok (s, j) →
    ∀ x ∈ s.clocks, x ∈ r.clockIndices ∨ x ∈ r.quotientClocks
  | .composition l r, env, i, j, s, h, x, hx => by
    obtain ⟨⟨sl, k⟩, h1, h⟩ := bind_ok h
    obtain ⟨⟨sr, k'⟩, h2, h⟩ := bind_ok h
    obtain ⟨s', h3, h⟩ := bind_ok h
    cases h
    obtain ⟨_, rfl⟩ := Sys.newComposition_eq h3
    have e : (Recipe.composition l r).clockIndices = l.clockIndices ++ r.clockIndices := List.flatMap_append
    rw [e, Recipe.quotientClocks, List.mem_append, List.mem_append]
    rcases List.mem_append.1 hx with hx | hx
    · rcases compile_clocks h1 x hx with h | h <;> simp [h]
    · rcases compile_clocks h2 x hx with h | h <;> simp [h]
  | .conjunction l r, env, i, j, s, h, x, hx => by
    obtain ⟨⟨sl, k⟩, h1, h⟩ := bind_ok h
    obtain ⟨⟨sr, k'⟩, h2, h⟩ := bind_ok h
    obtain ⟨s', h3, h⟩ := bind_ok h
    cases h
    obtain ⟨_, _, rfl⟩ := Sys.newConjunction_eq (newConjunction_unchecked h3)
    have e : (Recipe.conjunction l r).clockIndices = l.clockIndices ++ r.clockIndices := List.flatMap_append
    rw [e, Recipe.quotientClocks, List.mem_append, List.mem_append]
    rcases List.mem_append.1 hx with hx | hx
    · rcases compile_clocks h1 x hx with h | h <;> simp [h]
    · rcases compile_clocks h2 x hx with h | h <;> simp [h]
  | .quotient l r q, env, i, j, s, h, x, hx => by
    obtain ⟨⟨sl, k⟩, h1, h⟩ := bind_ok h
    obtain ⟨⟨sr, k'⟩, h2, h⟩ := bind_ok h
    obtain ⟨s', h3, h⟩ := bind_ok h
    cases h
    obtain ⟨_, rfl⟩ := Sys.newQuotient_eq (newQuotient_unchecked h3)
    have e : (Recipe.quotient l r q).clockIndices = l.clockIndices ++ r.clockIndices := List.flatMap_append
    rw [e, Recipe.quotientClocks, List.mem_append, List.mem_append, List.mem_append]
    rcases List.mem_append.1 hx with hx | hx
    · rcases List.mem_append.1 hx with hx | hx
      · rcases compile_clocks h1 x hx with h | h <;> simp [h]
      · rcases compile_clocks h2 x hx with h | h <;> simp [h]
    · exact .inr (.inr hx)
  | .component c n, env, i, j, s, h, x, hx => by
    obtain ⟨y, h1, h⟩ := bind_ok h
    cases h
    refine .inl (List.mem_flatMap.2 ⟨c, List.mem_singleton.2 rfl, ?_⟩)
    have : y.decls = c.decls := by
      unfold CompComp.compile at h1
      unfold CompComp.compileWith at h1
      split at h1
      · cases h1
      obtain ⟨_, _, h1⟩ := bind_ok h1
      obtain ⟨_, _, h1⟩ := bind_ok h1
      cases h1
      rfl
    rw [← this]
    exact hx

end Reveaal
