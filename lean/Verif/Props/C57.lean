import Verif.Props.C56

/-!
# C57 A simulation over the protocol is the simulation of the system

The server keeps nothing between the requests of a simulation: every request builds the system anew and reads the
chosen decision from the message.
-/

namespace Reveaal
open ZoneLib
variable {F : Type} [ZoneLib F]

/-- Two states with the same location and the same valuations. -/
def SameState (x y : State F) : Prop := x.loc = y.loc ∧ den x.zone = den y.zone

/-- The message describes the decision: whichever build of the system reads it, it finds the action, the names of the
edges of the transition, and the states of the decision. -/
def Describes (r : Recipe) (q : ProtoDecision) (d : Decision F) : Prop :=
  q.action = d.action ∧ ∀ (env : CompileEnv F) (s : Sys F) (j : Nat), env.Perm → r.compile env 0 = .ok (s, j) →
    (∃ t, d.transition = some t ∧ specificEdges t.id s = .ok q.edges) ∧
    (∃ p x, q.source = some p ∧ readState s p = .ok x ∧ SameState x d.state) ∧
    ∃ p x, q.destination = some p ∧ readState s p = .ok x ∧ SameState x d.nextState

/-- A simulation of the system: the decisions offered at the start, or after choosing one that was offered. -/
inductive LocalRun (s : Sys F) : List (Decision F) → Prop
  | start {acts ds} : (∀ a ∈ acts, s.hasAction a = true) → Decision.initialDecisions s.ts acts = .ok ds →
      LocalRun s ds
  | step {acts ds d ds'} : LocalRun s ds → d ∈ ds → (∀ a ∈ acts, s.hasAction a = true) →
      d.resolve s.ts acts = .ok ds' → LocalRun s ds'

/-- A simulation over the protocol: the messages answered to the first request, or to a request with a message that was
answered before.  Every request is served by its own build of the system. -/
inductive ProtoRun (F : Type) [ZoneLib F] (r : Recipe) : List ProtoDecision → Prop
  | start {env : CompileEnv F} {s : Sys F} {j ord acts st qs} : env.Perm → r.compile env 0 = .ok (s, j) →
      (∀ l, (ord l).Perm l) → (∀ a ∈ acts, s.hasAction a = true) → startSimulation ord s acts = .ok (st, qs) →
      ProtoRun F r qs
  | step {env : CompileEnv F} {s : Sys F} {j ord acts st qs q qs'} : ProtoRun F r qs → q ∈ qs →
      env.Perm → r.compile env 0 = .ok (s, j) → (∀ l, (ord l).Perm l) → (∀ a ∈ acts, s.hasAction a = true) →
      stepSimulation ord s acts q = .ok (st, qs') → ProtoRun F r qs'

/-! ## Decisions of states with the same valuations -/

theorem useAlt_same {t : Transition F} (hu : UpdatesOk t.updates (dim F)) {x y : State F} (h : SameState x y) :
    Option.Rel SameState (t.useAlt x) (t.useAlt y) := by
  obtain ⟨a1, a2⟩ := C05_use_transition_alt t x hu
  obtain ⟨b1, b2⟩ := C05_use_transition_alt t y hu
  cases hx : t.useAlt x with
  | none =>
    have := a2.1 hx
    rw [h.2] at this
    rw [b2.2 this]; exact .none
  | some x' =>
    cases hy : t.useAlt y with
    | none =>
      have := b2.1 hy
      rw [← h.2] at this
      rw [a2.2 this] at hx; cases hx
    | some y' =>
      obtain ⟨h1, h2, _⟩ := a1 x' hx
      obtain ⟨h3, h4, _⟩ := b1 y' hy
      exact .some ⟨h1.trans h3.symm, by rw [h2, h4, h.2]⟩

/-- Two decisions that only differ in how their zones are represented. -/
def SameDecision (c d : Decision F) : Prop :=
  SameState c.state d.state ∧ c.action = d.action ∧ c.transition = d.transition ∧ SameState c.nextState d.nextState

/-- Two results: both fail in the same way, or both succeed with related values. -/
def SameRes {α β : Type} (R : α → β → Prop) : Res α → Res β → Prop
  | .ok a, .ok b => R a b
  | .error e, .error e' => e = e'
  | _, _ => False

theorem SameRes.bind {α β γ δ : Type} {R : α → β → Prop} {S : γ → δ → Prop} {x : Res α} {y : Res β}
    {f : α → Res γ} {g : β → Res δ} (h : SameRes R x y) (hf : ∀ a b, x = .ok a → y = .ok b → R a b → SameRes S (f a) (g b)) :
    SameRes S (x >>= f) (y >>= g) := by
  match x, y, h with
  | .ok a, .ok b, h => exact hf a b rfl rfl h
  | .error e, .error e', h => exact h

theorem isEmpty_congr {x y : F} (h : den x = den y) : ZoneLib.isEmpty x = ZoneLib.isEmpty y := by
  rw [Bool.eq_iff_iff, ZoneLib.isEmpty_iff, ZoneLib.isEmpty_iff, h]

theorem fromStateTransition_same {t : Transition F} (hu : UpdatesOk t.updates (dim F)) {x y : State F}
    (h : SameState x y) (a : String) :
    SameRes (Option.Rel SameDecision) (Decision.fromStateTransition x t a) (Decision.fromStateTransition y t a) := by
  have hs : SameState ⟨x.loc, inter x.zone t.allowed⟩ ⟨y.loc, inter y.zone t.allowed⟩ :=
    ⟨h.1, by simp only [den_inter, h.2]⟩
  unfold Decision.fromStateTransition
  dsimp only
  rw [isEmpty_congr hs.2]
  split
  · have := useAlt_same hu hs
    revert this
    generalize t.useAlt ⟨x.loc, inter x.zone t.allowed⟩ = p
    generalize t.useAlt ⟨y.loc, inter y.zone t.allowed⟩ = q
    intro this
    cases this with
    | none => exact rfl
    | some h' => exact .some ⟨hs, rfl, rfl, h'⟩
  · exact .none

theorem fromTransitions_same {x y : State F} (h : SameState x y) (a : String) : ∀ {trans : List (Transition F)},
    (∀ t ∈ trans, UpdatesOk t.updates (dim F)) →
    SameRes (List.Forall₂ SameDecision) (Decision.fromTransitions x a trans) (Decision.fromTransitions y a trans) := by
  intro trans
  induction trans with
  | nil => intro _; exact .nil
  | cons t trans ih =>
    intro hu
    refine (fromStateTransition_same (hu t (by simp)) h a).bind fun c d _ _ hcd => ?_
    refine (ih fun t ht => hu t (List.mem_cons_of_mem _ ht)).bind fun cs ds _ _ hs => ?_
    cases hcd with
    | none => exact hs
    | some h => exact .cons h hs

/-- The decisions offered only depend on the location and the valuations of a state. -/
theorem fromState_same {ts ts' : TS F} (hn : ts.next = ts'.next) {x y : State F} (h : SameState x y) :
    ∀ {acts : List String}, (∀ a ∈ acts, ∀ trans, ts.next x.loc a = .ok trans → ∀ t ∈ trans, UpdatesOk t.updates (dim F)) →
    SameRes (List.Forall₂ SameDecision) (Decision.fromState ts acts x) (Decision.fromState ts' acts y) := by
  intro acts
  induction acts with
  | nil => intro _; exact .nil
  | cons a acts ih =>
    intro hu
    have hr : SameRes Eq (ts.next x.loc a) (ts'.next y.loc a) := by
      rw [hn, h.1]
      cases ts'.next y.loc a <;> exact rfl
    refine hr.bind fun tx ty hx _ e => ?_
    subst e
    refine (fromTransitions_same h a (hu a (by simp) tx hx)).bind fun cs ds _ _ h1 => ?_
    refine (ih fun b hb => hu b (List.mem_cons_of_mem _ hb)).bind fun cs' ds' _ _ h2 => ?_
    exact forall2_append h1 h2

theorem filterMap_same {x y : State F} (h : SameState x y) : ∀ {trans : List (Transition F)},
    (∀ t ∈ trans, UpdatesOk t.updates (dim F)) →
    List.Forall₂ SameState (trans.filterMap fun t => t.useAlt x) (trans.filterMap fun t => t.useAlt y) := by
  intro trans
  induction trans with
  | nil => intro _; exact .nil
  | cons t trans ih =>
    intro hu
    have h1 := ih fun t ht => hu t (List.mem_cons_of_mem _ ht)
    have h2 := useAlt_same (hu t (by simp)) h
    revert h2
    simp only [List.filterMap_cons]
    generalize t.useAlt x = p
    generalize t.useAlt y = q
    intro h2
    cases h2 with
    | none => exact h1
    | some h => exact .cons h h1

theorem resolveState_same {ts ts' : TS F} (hn : ts.next = ts'.next) {c d : Decision F} (h : SameState c.state d.state)
    (ha : c.action = d.action) (hu : ∀ trans, ts.next c.state.loc c.action = .ok trans →
      ∀ t ∈ trans, UpdatesOk t.updates (dim F)) :
    SameRes SameState (c.resolveState ts) (d.resolveState ts') := by
  have hr : SameRes Eq (ts.next c.state.loc c.action) (ts'.next d.state.loc d.action) := by
    rw [hn, h.1, ha]
    cases ts'.next d.state.loc d.action <;> exact rfl
  refine hr.bind fun tx ty hx _ e => ?_
  subst e
  have := filterMap_same h (hu tx hx)
  revert this
  generalize tx.filterMap (fun t => t.useAlt c.state) = p
  generalize tx.filterMap (fun t => t.useAlt d.state) = q
  intro this
  cases this with
  | nil => exact rfl
  | cons h1 h2 =>
    cases h2 with
    | nil => exact h1
    | cons _ _ => exact rfl

/-! ## Decisions that can be sent -/

/-- A location of the system with valuations that satisfy its invariant. -/
def Sys.IsState (s : Sys F) (x : State F) : Prop := s.IsLoc x.loc ∧ ∀ v ∈ den x.zone, v ∈ InvSet x.loc

/-- What holds of the decisions of a simulation. -/
structure Sendable (s : Sys F) (d : Decision F) : Prop where
  state : s.IsState d.state
  next : s.IsState d.nextState
  action : s.hasAction d.action = true
  edges : ∃ t es, d.transition = some t ∧ specificEdges t.id s = .ok es

theorem fromState_sendable {r : Recipe} {env : CompileEnv F} {j : Nat} {s : Sys F} (he : env.Perm) (hok : r.Ok (dim F))
    (hs : r.compile env 0 = .ok (s, j)) {acts : List String} (hacts : ∀ a ∈ acts, s.hasAction a = true) {st : State F}
    (hst : s.IsState st) {ds : List (Decision F)} (hds : Decision.fromState s.ts acts st = .ok ds) :
    ∀ d ∈ ds, Sendable s d := by
  intro d hd
  obtain ⟨a, ha, trans, hn, t, ht, hdt⟩ := fromState_mem hds d hd
  obtain ⟨e1, e2, e3, e4, e5⟩ := fromStateTransition_mem hdt
  obtain ⟨es, tes, n1, _⟩ := next_named he hs hst.1 hn t ht
  obtain ⟨trans', hn', hgt⟩ := (Recipe.compile_accepted he hok hs).good.next st.loc a hst.1 (hacts a ha)
  have hn'' : s.next st.loc a = .ok trans := hn
  rw [hn'] at hn''; cases hn''
  obtain ⟨u1, u2⟩ := useTransition_loc e5
  exact ⟨⟨by rw [e3]; exact hst.1, fun v hv => by rw [e3]; exact hst.2 v (e4 v hv).1⟩,
    ⟨by rw [u1]; exact (hgt t ht).1, u2⟩, by rw [e1]; exact hacts a ha, t, es, e2, n1⟩

/-- A decision that can be sent is sent, and the message describes it. -/
theorem send_describes {r : Recipe} {env : CompileEnv F} {j : Nat} {s : Sys F} (he : env.Perm) (hok : r.Ok (dim F))
    (hr : r.ClockTables) (hs : r.compile env 0 = .ok (s, j)) (hdim : dim F ≤ 2 ^ 32)
    {ord : List (String × Nat) → List (String × Nat)} (ho : ∀ l, (ord l).Perm l) {d : Decision F} (hd : Sendable s d) :
    ∃ q, sendDecision ord s d = .ok q ∧ Describes r q d := by
  obtain ⟨t, es, ht, hes⟩ := hd.edges
  obtain ⟨p1, _, hp1, _⟩ := C34_state he he hok hr hs hs hdim ho hd.state.1 hd.state.2
  obtain ⟨p2, _, hp2, _⟩ := C34_state he he hok hr hs hs hdim ho hd.next.1 hd.next.2
  refine ⟨⟨some p1, d.action, es, some p2⟩, by simp only [sendDecision, ht, hes, hp1, hp2, ok_bind], rfl, ?_⟩
  intro env' s' j' he' hs'
  obtain ⟨hb, _⟩ := Recipe.compile_rebuilt he he' hs hs'
  obtain ⟨q1, x1, h1, k1, l1⟩ := C34_state he he' hok hr hs hs' hdim ho hd.state.1 hd.state.2
  obtain ⟨q2, x2, h2, k2, l2⟩ := C34_state he he' hok hr hs hs' hdim ho hd.next.1 hd.next.2
  rw [hp1] at h1; cases h1
  rw [hp2] at h2; cases h2
  exact ⟨⟨t, ht, by rw [← hb.edges]; exact hes⟩, ⟨_, x1, rfl, k1, l1⟩, _, x2, rfl, k2, l2⟩

theorem SameState.trans' {x y z : State F} (h : SameState x y) (h' : SameState y z) : SameState x z :=
  ⟨h.1.trans h'.1, h.2.trans h'.2⟩

theorem Describes.same {r : Recipe} {q : ProtoDecision} {c d : Decision F} (h : Describes r q c)
    (hcd : SameDecision c d) : Describes r q d := by
  refine ⟨h.1.trans hcd.2.1, fun env s j he hs => ?_⟩
  obtain ⟨⟨t, h1, h2⟩, ⟨p, x, k1, k2, k3⟩, p', x', l1, l2, l3⟩ := h.2 env s j he hs
  exact ⟨⟨t, hcd.2.2.1.symm.trans h1, h2⟩, ⟨p, x, k1, k2, k3.trans' hcd.1⟩, p', x', l1, l2, l3.trans' hcd.2.2.2⟩

theorem Sendable.same {s : Sys F} {c d : Decision F} (h : Sendable s d) (hcd : SameDecision c d) : Sendable s c := by
  refine ⟨⟨by rw [hcd.1.1]; exact h.state.1, fun v hv => ?_⟩, ⟨by rw [hcd.2.2.2.1]; exact h.next.1, fun v hv => ?_⟩,
    by rw [hcd.2.1]; exact h.action, by rw [hcd.2.2.1]; exact h.edges⟩
  · rw [hcd.1.1]; rw [hcd.1.2] at hv; exact h.state.2 v hv
  · rw [hcd.2.2.2.1]; rw [hcd.2.2.2.2] at hv; exact h.next.2 v hv

theorem sendAll_describes {r : Recipe} {env : CompileEnv F} {j : Nat} {s : Sys F} (he : env.Perm) (hok : r.Ok (dim F))
    (hr : r.ClockTables) (hs : r.compile env 0 = .ok (s, j)) (hdim : dim F ≤ 2 ^ 32)
    {ord : List (String × Nat) → List (String × Nat)} (ho : ∀ l, (ord l).Perm l) {cs ds : List (Decision F)}
    (hcd : List.Forall₂ SameDecision cs ds) (hd : ∀ c ∈ cs, Sendable s c) :
    ∃ qs, cs.mapM (sendDecision ord s) = .ok qs ∧ List.Forall₂ (Describes r) qs ds := by
  induction hcd with
  | nil => exact ⟨[], rfl, .nil⟩
  | cons h _ ih =>
    rename_i c d cs ds _
    obtain ⟨q, h1, h2⟩ := send_describes he hok hr hs hdim ho (hd c (by simp))
    obtain ⟨qs, h3, h4⟩ := ih fun c hc => hd c (List.mem_cons_of_mem _ hc)
    exact ⟨q :: qs, by rw [List.mapM_cons, h1, ok_bind, h3, ok_bind]; rfl, .cons (h2.same h) h4⟩

theorem resolveState_isState {s : Sys F} (hg : s.Good) {d : Decision F} (hl : s.IsLoc d.state.loc)
    (ha : s.hasAction d.action = true) {x : State F} (h : d.resolveState s.ts = .ok x) : s.IsState x := by
  obtain ⟨trans, hn, hgt⟩ := hg.next d.state.loc d.action hl ha
  have hn' : s.ts.next d.state.loc d.action = .ok trans := hn
  unfold Decision.resolveState at h
  rw [hn', ok_bind] at h
  have hx : x ∈ trans.filterMap fun t => t.useAlt d.state := by
    split at h
    · cases h
    · rename_i y hy; cases h; rw [hy]; simp
    · cases h
  obtain ⟨t, ht, hu⟩ := List.mem_filterMap.1 hx
  obtain ⟨u1, u2⟩ := useTransition_loc hu
  exact ⟨by rw [u1]; exact (hgt t ht).1, u2⟩

theorem initialState_isState {s : Sys F} (hg : s.Good) {x : State F} (h : s.ts.initialState = .ok (some x)) :
    s.IsState x := by
  have h : s.initialState = .ok (some x) := h
  obtain ⟨o, ho, hl⟩ := hg.initial
  unfold Sys.initialState at h
  rw [ho, ok_bind] at h
  cases o with
  | none => cases h
  | some l =>
    dsimp only at h
    have hl := hl l rfl
    split at h
    · rename_i t u i o c n
      cases h
      refine ⟨hl, fun v _ => ?_⟩
      unfold Sys.initialLoc at ho
      obtain ⟨a, _, ho⟩ := bind_ok ho
      cases a with
      | none => cases ho
      | some a =>
        obtain ⟨b, _, ho⟩ := bind_ok ho
        cases b with
        | none => cases ho
        | some b => cases ho; intro i hi; cases hi
    · unfold State.fromLocation at h
      dsimp only at h
      split at h
      · cases h
      · cases h
        exact ⟨hl, fun v hv => (mem_applyInvariants.1 hv).2⟩

/-! ## The requests -/

/-- **C57** The answer to the first request describes the decisions offered in the initial state, and the initial
state; if computing them fails, the request fails in the same way. -/
theorem C57_start {r : Recipe} {env : CompileEnv F} {j : Nat} {s : Sys F} (he : env.Perm) (hok : r.Ok (dim F))
    (hr : r.ClockTables) (hs : r.compile env 0 = .ok (s, j)) (hdim : dim F ≤ 2 ^ 32)
    {ord : List (String × Nat) → List (String × Nat)} (ho : ∀ l, (ord l).Perm l) {acts : List String}
    (hacts : ∀ a ∈ acts, s.hasAction a = true) :
    SameRes (fun ds (a : Option ProtoState × List ProtoDecision) => List.Forall₂ (Describes r) a.2 ds ∧
        ∃ st p x, s.ts.initialState = .ok (some st) ∧ a.1 = some p ∧ readState s p = .ok x ∧ SameState x st)
      (Decision.initialDecisions s.ts acts) (startSimulation ord s acts) := by
  have hg := (Recipe.compile_accepted he hok hs).good
  unfold startSimulation
  cases hi : Decision.initialDecisions s.ts acts with
  | error e => exact rfl
  | ok ds =>
    have hi' := hi
    unfold Decision.initialDecisions at hi'
    obtain ⟨o, h1, h2⟩ := bind_ok hi'
    cases o with
    | none => cases h2
    | some st =>
      have hst := initialState_isState hg h1
      have hsend := fromState_sendable he hok hs hacts hst h2
      obtain ⟨qs, h3, h4⟩ := sendAll_describes he hok hr hs hdim ho
        (List.forall₂_same.2 fun d _ => (⟨⟨rfl, rfl⟩, rfl, rfl, rfl, rfl⟩ : SameDecision d d)) hsend
      obtain ⟨p, x, h5, h6, h7⟩ := C34_state he he hok hr hs hs hdim ho hst.1 hst.2
      rw [ok_bind, h3, ok_bind, h1, ok_bind]
      dsimp only
      rw [h5, ok_bind]
      exact ⟨h4, st, p, x, rfl, rfl, h6, h7⟩

/-- **C57** The answer to a request with a message that describes a decision of the simulation describes the decisions
offered after it; if the decision cannot be resolved, the request fails in the same way.  The state in the answer is the
destination of the decision.  The action is not the empty string, see `C57_violated_empty_action`. -/
theorem C57_step_partial {r : Recipe} {env : CompileEnv F} {j : Nat} {s : Sys F} (he : env.Perm) (hok : r.Ok (dim F))
    (hr : r.ClockTables) (hs : r.compile env 0 = .ok (s, j)) (hdim : dim F ≤ 2 ^ 32)
    {ord : List (String × Nat) → List (String × Nat)} (ho : ∀ l, (ord l).Perm l) {acts : List String}
    (hacts : ∀ a ∈ acts, s.hasAction a = true) {q : ProtoDecision} {d : Decision F} (hq : Describes r q d)
    (hd : Sendable s d) (hne : q.action ≠ "") :
    SameRes (fun ds (a : Option ProtoState × List ProtoDecision) => List.Forall₂ (Describes r) a.2 ds ∧
        a.1 = q.destination)
      (d.resolve s.ts acts) (stepSimulation ord s acts q) := by
  have hg := (Recipe.compile_accepted he hok hs).good
  obtain ⟨hact, hq⟩ := hq
  obtain ⟨_, ⟨p, x, k1, k2, k3⟩, p', x', l1, l2, l3⟩ := hq env s j he hs
  have hread : readDecision s q = .ok ⟨x, q.action, none, x'⟩ := by
    simp only [readDecision, k1, l1, k2, l2, ok_bind, if_neg hne]
  unfold stepSimulation
  rw [hread, ok_bind]
  have upd : ∀ l a, s.IsLoc l → s.hasAction a = true → ∀ trans, s.ts.next l a = .ok trans →
      ∀ t ∈ trans, UpdatesOk t.updates (dim F) := by
    intro l a hl ha trans hn t ht
    obtain ⟨trans', hn', hgt⟩ := hg.next l a hl ha
    have hn : s.next l a = .ok trans := hn
    rw [hn'] at hn; cases hn
    exact (hgt t ht).2.upd
  have hres : SameRes (fun ds cs => List.Forall₂ SameDecision cs ds ∧ ∀ c ∈ cs, Sendable s c) (d.resolve s.ts acts)
      (Decision.resolve ⟨x, q.action, none, x'⟩ s.ts acts) := by
    unfold Decision.resolve
    refine (resolveState_same (c := d) (d := ⟨x, q.action, none, x'⟩) (ts := s.ts) (ts' := s.ts) rfl
      ⟨k3.1.symm, k3.2.symm⟩ hact.symm (upd _ _ hd.state.1 hd.action)).bind fun y z hy hz hyz => ?_
    have hys := resolveState_isState hg hd.state.1 hd.action hy
    have hzs : s.IsState z := ⟨by rw [← hyz.1]; exact hys.1, fun v hv => by
      rw [← hyz.1]; rw [← hyz.2] at hv; exact hys.2 v hv⟩
    have := fromState_same (ts := s.ts) (ts' := s.ts) rfl (⟨hyz.1.symm, hyz.2.symm⟩ : SameState z y) (acts := acts)
      fun a ha => upd _ a hzs.1 (hacts a ha)
    revert this
    cases hcs : Decision.fromState s.ts acts z with
    | error e =>
      cases hds : Decision.fromState s.ts acts y with
      | error e' => intro h; exact h.symm
      | ok ds => intro h; exact h
    | ok cs =>
      cases hds : Decision.fromState s.ts acts y with
      | error e' => intro h; exact h
      | ok ds => intro h; exact ⟨h, fromState_sendable he hok hs hacts hzs hcs⟩
  have := hres.bind (f := fun ds => .ok ds)
    (g := fun cs => do .ok (q.destination, ← cs.mapM (sendDecision ord s)))
    (S := fun ds (a : Option ProtoState × List ProtoDecision) => List.Forall₂ (Describes r) a.2 ds ∧
        a.1 = q.destination) (by
      rintro ds cs _ _ ⟨h1, h2⟩
      obtain ⟨qs, h3, h4⟩ := sendAll_describes he hok hr hs hdim ho h1 h2
      rw [h3, ok_bind]
      exact ⟨h4, rfl⟩)
  revert this
  cases d.resolve s.ts acts <;> exact fun h => h

/-! ## Whole simulations -/

theorem LocalRun.sendable {r : Recipe} {env : CompileEnv F} {j : Nat} {s : Sys F} (he : env.Perm) (hok : r.Ok (dim F))
    (hs : r.compile env 0 = .ok (s, j)) {ds : List (Decision F)} (h : LocalRun s ds) : ∀ d ∈ ds, Sendable s d := by
  have hg := (Recipe.compile_accepted he hok hs).good
  induction h with
  | start hacts h =>
    unfold Decision.initialDecisions at h
    obtain ⟨o, h1, h2⟩ := bind_ok h
    cases o with
    | none => cases h2
    | some st => exact fromState_sendable he hok hs hacts (initialState_isState hg h1) h2
  | step _ hd hacts h ih =>
    unfold Decision.resolve at h
    obtain ⟨x, h1, h2⟩ := bind_ok h
    exact fromState_sendable he hok hs hacts
      (resolveState_isState hg (ih _ hd).state.1 (ih _ hd).action h1) h2

/-- **C57** Whatever a client is answered in a simulation, with every request served by another build of the system,
describes the decisions of a simulation of the system. -/
theorem C57_sound {r : Recipe} (hok : r.Ok (dim F)) (hr : r.ClockTables) (hdim : dim F ≤ 2 ^ 32)
    {qs : List ProtoDecision} (h : ProtoRun F r qs) :
    ∃ (env : CompileEnv F) (s : Sys F) (j : Nat) (ds : List (Decision F)), env.Perm ∧ r.compile env 0 = .ok (s, j) ∧
      LocalRun s ds ∧ List.Forall₂ (Describes r) qs ds := by
  induction h with
  | start he hs ho hacts h =>
    rename_i env s j ord acts st qs
    have := C57_start he hok hr hs hdim ho hacts
    rw [h] at this
    cases hi : Decision.initialDecisions s.ts acts with
    | error e => rw [hi] at this; cases this
    | ok ds =>
      rw [hi] at this
      exact ⟨env, s, j, ds, he, hs, .start hacts hi, this.1⟩
  | step hrun hq he hs ho hacts h ih =>
    rename_i env s j ord acts st qs q qs'
    obtain ⟨env0, s0, j0, ds, he0, hs0, hl, hf⟩ := ih
    obtain ⟨hb, _⟩ := Recipe.compile_rebuilt he he0 hs hs0
    obtain ⟨d, hd, hqd⟩ := forall2_mem_left hf q hq
    have hsend := hl.sendable he0 hok hs0 d hd
    have hsend' : Sendable s d := by
      refine ⟨⟨(hb.locs _).2 hsend.state.1, hsend.state.2⟩, ⟨(hb.locs _).2 hsend.next.1, hsend.next.2⟩, ?_, ?_⟩
      · rw [hb.hasAction]; exact hsend.action
      · obtain ⟨t, es, h1, h2⟩ := hsend.edges
        exact ⟨t, es, h1, by rw [hb.edges]; exact h2⟩
    have hne : q.action ≠ "" := by
      intro e
      unfold stepSimulation readDecision at h
      obtain ⟨_, ⟨p, x, k1, k2, _⟩, p', x', l1, l2, _⟩ := hqd.2 env s j he hs
      rw [k1, l1] at h
      simp only [k2, l2, ok_bind, e, if_true] at h
      cases h
    have := C57_step_partial he hok hr hs hdim ho hacts hqd hsend' hne
    rw [h] at this
    have hres : d.resolve s.ts acts = d.resolve s0.ts acts := by
      have hn : s.ts.next = s0.ts.next := hb.next
      have hf : ∀ (l : List String) x, Decision.fromState s.ts l x = Decision.fromState s0.ts l x := by
        intro l x
        induction l with
        | nil => rfl
        | cons a l ih => rw [Decision.fromState, Decision.fromState, hn, ih]
      unfold Decision.resolve Decision.resolveState
      rw [hn]
      simp only [hf]
    rw [hres] at this
    cases hi : d.resolve s0.ts acts with
    | error e => rw [hi] at this; cases this
    | ok ds' =>
      rw [hi] at this
      exact ⟨env0, s0, j0, ds', he0, hs0, hl.step hd (fun a ha => by rw [← hb.hasAction]; exact hacts a ha) hi, this.1⟩

/-- **C57** Every simulation of the system can be done over the protocol, if no action is the empty string. -/
theorem C57_complete_partial {r : Recipe} {env : CompileEnv F} {j : Nat} {s : Sys F} (he : env.Perm)
    (hok : r.Ok (dim F)) (hr : r.ClockTables) (hs : r.compile env 0 = .ok (s, j)) (hdim : dim F ≤ 2 ^ 32)
    (hne : s.hasAction "" = false) {ds : List (Decision F)} (h : LocalRun s ds) :
    ∃ qs, ProtoRun F r qs ∧ List.Forall₂ (Describes r) qs ds := by
  induction h with
  | start hacts h =>
    have := C57_start (ord := id) he hok hr hs hdim (fun _ => .refl _) hacts
    rw [h] at this
    cases hi : startSimulation id s _ with
    | error e => rw [hi] at this; cases this
    | ok a => rw [hi] at this; exact ⟨a.2, .start he hs (fun _ => .refl _) hacts hi, this.1⟩
  | step hrun hd hacts h ih =>
    obtain ⟨qs, h1, h2⟩ := ih
    obtain ⟨q, hq, hqd⟩ := forall2_mem_right h2 _ hd
    have hsend := hrun.sendable he hok hs _ hd
    have hq' : q.action ≠ "" := by
      rw [hqd.1]
      intro e
      have := hsend.action
      rw [e, hne] at this; cases this
    have := C57_step_partial (ord := id) he hok hr hs hdim (fun _ => .refl _) hacts hqd hsend hq'
    rw [h] at this
    cases hi : stepSimulation id s _ q with
    | error e => rw [hi] at this; cases this
    | ok a => rw [hi] at this; exact ⟨a.2, .step h1 hq he hs (fun _ => .refl _) hacts hi, this.1⟩

/-! ## The empty action -/

/-- One location with one edge, whose action is the empty string. -/
def exSilent : Component := ⟨"M", ⟨[], [("x", 1)]⟩, [⟨"L", none, .initial, "NORMAL"⟩],
  [⟨"e", "L", "L", .output, none, none, ""⟩]⟩

def exRecipeMute : Recipe := .component exSilent none

def sysMute : Sys Fed4 := (getOk (exRecipeMute.compile exEnvAA 0) (by decide +kernel)).1

theorem sysMute_eq : exRecipeMute.compile exEnvAA 0 = .ok (sysMute, 1) := by
  have := getOk_eq (r := exRecipeMute.compile exEnvAA 0) (by decide +kernel)
  rw [this]; rfl

theorem exRecipeMute_ok : exRecipeMute.Ok (dim Fed4) := by
  refine ⟨fun c hc => ?_, fun q hq => by cases hq⟩
  rw [List.mem_singleton.1 hc]; exact Component.ok_of_okB (by decide)

/-- The full property is false: for an action named by the empty string the decision is offered and leads somewhere,
but choosing it crashes the server. -/
theorem C57_violated_empty_action : ∃ (st : Option ProtoState) (q : ProtoDecision) (d : Decision Fed4)
    (ds : List (Decision Fed4)), startSimulation id sysMute [""] = .ok (st, [q]) ∧
    Decision.initialDecisions sysMute.ts [""] = .ok [d] ∧ d.resolve sysMute.ts [""] = .ok ds ∧
    stepSimulation id sysMute [""] q = .error (.panic "A decision must have an action specified.") := by
  have h1 : (match startSimulation id sysMute [""] with
    | .ok (_, [q]) => decide (stepSimulation id sysMute [""] q =
        .error (.panic "A decision must have an action specified."))
    | _ => false) = true := by decide +kernel
  have h2 : (match Decision.initialDecisions sysMute.ts [""] with
    | .ok [d] => (d.resolve sysMute.ts [""]).toBool
    | _ => false) = true := by decide +kernel
  split at h1
  · rename_i st q hq
    split at h2
    · rename_i d hd
      cases hr : d.resolve sysMute.ts [""] with
      | error e => rw [hr] at h2; cases h2
      | ok ds => exact ⟨st, q, d, ds, hq, hd, hr, of_decide_eq_true h1⟩
    · cases h2
  · cases h1

/-! ## Example -/

/-- Non-vacuity: `A \\ A` has a simulation of two steps, so the hypotheses of the theorems are met by it: two decisions
are offered after `go`. -/
example : sysAA.hasAction "" = false ∧ ∃ ds, LocalRun sysAA ds ∧ ds.length = 2 := by
  refine ⟨by decide +kernel, ?_⟩
  have h : (match Decision.initialDecisions sysAA.ts ["go"] with
    | .ok [d] => (match d.resolve sysAA.ts ["out"] with | .ok ds => ds.length | .error _ => 0)
    | _ => 0) = 2 := by decide +kernel
  split at h
  · rename_i d hd
    split at h
    · rename_i ds hds
      refine ⟨ds, .step (.start (acts := ["go"]) ?_ hd) (List.mem_singleton.2 rfl) (acts := ["out"]) ?_ hds, h⟩
      · intro a ha; rw [List.mem_singleton.1 ha]; decide +kernel
      · intro a ha; rw [List.mem_singleton.1 ha]; decide +kernel
    · cases h
  · cases h

end Reveaal
