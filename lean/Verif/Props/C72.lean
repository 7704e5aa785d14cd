import Verif.Spec.Respond
import Verif.Props.C58
import Verif.Props.C61

/-!
# C72 The states reported for failed determinism and consistency queries
-/

namespace Reveaal
open ZoneLib
variable {F : Type} [ZoneLib F]

/-! ## Which component a failure is about -/

theorem Sys.detFailure_part {s : Sys F} : ∀ {ord : List Bool → Orders} {fuel : Nat} {p : Sys F} {f : DetFailure F},
    s.detFailure ord fuel = .ok (some (p, f)) →
      ∃ q ∈ s.parts, p = .comp q.2 ∧ checkDeterminism (Sys.comp q.2).ts (ord q.1).acts fuel = .ok (some f) := by
  induction s with
  | comp c =>
    intro ord fuel p f h
    obtain ⟨o, h1, h⟩ := bind_ok h
    cases o with
    | none => cases h
    | some g => cases h; exact ⟨_, List.mem_singleton.2 rfl, rfl, h1⟩
  | composition l r _ _ _ _ _ ihl ihr | conjunction l r _ _ ihl ihr | quotient l r _ _ _ _ ihl ihr =>
    intro ord fuel p f h
    rw [Sys.detFailure] at h
    rcases either_some h rfl (fun _ => rfl) with h | h
    · obtain ⟨q, hq, e, h⟩ := ihl h
      exact ⟨(false :: q.1, q.2), List.mem_append_left _ (List.mem_map.2 ⟨q, hq, rfl⟩), e, h⟩
    · obtain ⟨q, hq, e, h⟩ := ihr h
      exact ⟨(true :: q.1, q.2), List.mem_append_right _ (List.mem_map.2 ⟨q, hq, rfl⟩), e, h⟩

theorem Sys.consFailure_part {s : Sys F} : ∀ {ord : List Bool → Orders} {fuel : Nat} {p : Sys F} {f : ConsFailure F},
    s.consFailure ord fuel = .ok (some (p, f)) →
      ∃ q ∈ s.parts, p = .comp q.2 ∧
        isLeastConsistent (Sys.comp q.2).ts (ord q.1).inputs (ord q.1).outputs fuel = .ok (some f) := by
  induction s with
  | comp c =>
    intro ord fuel p f h
    obtain ⟨o, h1, h⟩ := bind_ok h
    cases o with
    | none => cases h
    | some g => cases h; exact ⟨_, List.mem_singleton.2 rfl, rfl, h1⟩
  | composition l r _ _ _ _ _ ihl ihr | conjunction l r _ _ ihl ihr | quotient l r _ _ _ _ ihl ihr =>
    intro ord fuel p f h
    rw [Sys.consFailure] at h
    rcases either_some h rfl (fun _ => rfl) with h | h <;>
    first
    | obtain ⟨q, hq, e, h⟩ := ihl h
      exact ⟨(false :: q.1, q.2), List.mem_append_left _ (List.mem_map.2 ⟨q, hq, rfl⟩), e, h⟩
    | obtain ⟨q, hq, e, h⟩ := ihr h
      exact ⟨(true :: q.1, q.2), List.mem_append_right _ (List.mem_map.2 ⟨q, hq, rfl⟩), e, h⟩

theorem either_map {X Y : Type} (g : X → Y) {a b : Res (Option X)} {a' b' : Res (Option Y)} {k : Option X → Res (Option X)}
    {k' : Option Y → Res (Option Y)} (h0 : k none = b) (h1 : ∀ f, k (some f) = .ok (some f)) (h0' : k' none = b')
    (h1' : ∀ f, k' (some f) = .ok (some f)) (ha : a' = a.map (Option.map g)) (hb : b' = b.map (Option.map g)) :
    a' >>= k' = (a >>= k).map (Option.map g) := by
  subst ha
  cases a with
  | error e => rfl
  | ok o =>
    cases o with
    | none => show k' none = (k none).map _; rw [h0', h0, hb]
    | some f => show k' (some (g f)) = (k (some f)).map _; rw [h1', h1]; rfl

/-- **C72 (same verdict).** The check answers as it does without the system the failure is about. -/
theorem C72_determinism_verdict (s : Sys F) (ord : List Bool → Orders) (fuel : Nat) :
    s.checkDet ord fuel = (s.detFailure ord fuel).map (Option.map (·.2)) := by
  induction s generalizing ord with
  | comp c =>
    rw [Sys.checkDet, Sys.detFailure]
    cases checkDeterminism (Sys.comp c).ts (ord []).acts fuel with
    | error e => rfl
    | ok o => cases o <;> rfl
  | composition l r _ _ _ _ _ ihl ihr | conjunction l r _ _ ihl ihr | quotient l r _ _ _ _ ihl ihr =>
    rw [Sys.checkDet, Sys.detFailure]
    exact either_map _ rfl (fun _ => rfl) rfl (fun _ => rfl) (ihl _) (ihr _)

theorem consFailure_verdict (s : Sys F) (ord : List Bool → Orders) (fuel : Nat) :
    s.checkCons ord fuel = (s.consFailure ord fuel).map (Option.map (·.2)) := by
  induction s generalizing ord with
  | comp c =>
    rw [Sys.checkCons, Sys.consFailure]
    cases isLeastConsistent (Sys.comp c).ts (ord []).inputs (ord []).outputs fuel with
    | error e => rfl
    | ok o => cases o <;> rfl
  | composition l r _ _ _ _ _ ihl ihr | conjunction l r _ _ ihl ihr =>
    rw [Sys.checkCons, Sys.consFailure]
    exact either_map _ rfl (fun _ => rfl) rfl (fun _ => rfl) (ihl _) (ihr _)
  | quotient l r _ _ _ _ ihl ihr =>
    rw [Sys.checkCons, Sys.consFailure]
    exact either_map _ rfl (fun _ => rfl) rfl (fun _ => rfl) (ihr _) (ihl _)

/-- **C72 (same verdict).** The same for consistency queries. -/
theorem C72_consistency_verdict (s : Sys F) (ord : List Bool → Orders) (fuel : Nat) :
    s.precheck ord fuel = (s.precheckFailure ord fuel).map (Option.map (·.2)) := by
  unfold Sys.precheck Sys.precheckFailure
  rw [C72_determinism_verdict, consFailure_verdict]
  cases s.detFailure ord fuel with
  | error e => rfl
  | ok o => cases o <;> rfl

/-- A component of a compiled recipe is compiled from an instance of the recipe, with the number of that instance. -/
theorem part_compiled : ∀ {r : Recipe} {env : CompileEnv F} {i j : Nat} {s : Sys F}, env.Perm →
    r.compile env i = .ok (s, j) → ∀ {q}, q ∈ s.parts → ∃ (n : Nat) (k : Component) (order : List (LocId × LocTree F) → List (LocId × LocTree F)),
      r.components[n]? = some k ∧ (∀ l, (order l).Perm l) ∧ CompComp.compile order k (i + n) = .ok q.2 := by
  intro r
  induction r with
  | component c id =>
    intro env i j s he h q hq
    obtain ⟨y, h1, h⟩ := bind_ok h
    cases h
    cases List.mem_singleton.1 hq
    exact ⟨0, c, _, rfl, he i, h1⟩
  | composition l r ihl ihr =>
    intro env i j s he h q hq
    obtain ⟨⟨sl, k⟩, h1, h⟩ := bind_ok h
    obtain ⟨⟨sr, m⟩, h2, h⟩ := bind_ok h
    obtain ⟨x, h3, h⟩ := bind_ok h
    cases h
    obtain ⟨_, rfl⟩ := Sys.newComposition_eq h3
    have hk := components_length (env := env.sub false) he h1
    rcases List.mem_append.1 hq with hq | hq <;> obtain ⟨q, hq', rfl⟩ := List.mem_map.1 hq
    · obtain ⟨n, c, o, a1, a2, a3⟩ := ihl (env := env.sub false) he h1 hq'
      exact ⟨n, c, o, by rw [Recipe.components, List.getElem?_append_left (List.getElem?_eq_some_iff.1 a1).1]; exact a1, a2, a3⟩
    · obtain ⟨n, c, o, a1, a2, a3⟩ := ihr (env := env.sub true) he h2 hq'
      refine ⟨l.components.length + n, c, o, by rw [Recipe.components, List.getElem?_append_right (by omega), Nat.add_sub_cancel_left]; exact a1, a2, ?_⟩
      rw [← Nat.add_assoc, ← hk]; exact a3
  | conjunction l r ihl ihr =>
    intro env i j s he h q hq
    obtain ⟨⟨sl, k⟩, h1, h⟩ := bind_ok h
    obtain ⟨⟨sr, m⟩, h2, h⟩ := bind_ok h
    obtain ⟨x, h3, h⟩ := bind_ok h
    cases h
    obtain ⟨_, _, rfl⟩ := Sys.newConjunction_eq (newConjunction_unchecked h3)
    have hk := components_length (env := env.sub false) he h1
    rcases List.mem_append.1 hq with hq | hq <;> obtain ⟨q, hq', rfl⟩ := List.mem_map.1 hq
    · obtain ⟨n, c, o, a1, a2, a3⟩ := ihl (env := env.sub false) he h1 hq'
      exact ⟨n, c, o, by rw [Recipe.components, List.getElem?_append_left (List.getElem?_eq_some_iff.1 a1).1]; exact a1, a2, a3⟩
    · obtain ⟨n, c, o, a1, a2, a3⟩ := ihr (env := env.sub true) he h2 hq'
      refine ⟨l.components.length + n, c, o, by rw [Recipe.components, List.getElem?_append_right (by omega), Nat.add_sub_cancel_left]; exact a1, a2, ?_⟩
      rw [← Nat.add_assoc, ← hk]; exact a3
  | quotient l r c ihl ihr =>
    intro env i j s he h q hq
    obtain ⟨⟨sl, k⟩, h1, h⟩ := bind_ok h
    obtain ⟨⟨sr, m⟩, h2, h⟩ := bind_ok h
    obtain ⟨x, h3, h⟩ := bind_ok h
    cases h
    obtain ⟨_, rfl⟩ := Sys.newQuotient_eq (newQuotient_unchecked h3)
    have hk := components_length (env := env.sub false) he h1
    rcases List.mem_append.1 hq with hq | hq <;> obtain ⟨q, hq', rfl⟩ := List.mem_map.1 hq
    · obtain ⟨n, c, o, a1, a2, a3⟩ := ihl (env := env.sub false) he h1 hq'
      exact ⟨n, c, o, by rw [Recipe.components, List.getElem?_append_left (List.getElem?_eq_some_iff.1 a1).1]; exact a1, a2, a3⟩
    · obtain ⟨n, c, o, a1, a2, a3⟩ := ihr (env := env.sub true) he h2 hq'
      refine ⟨l.components.length + n, c, o, by rw [Recipe.components, List.getElem?_append_right (by omega), Nat.add_sub_cancel_left]; exact a1, a2, ?_⟩
      rw [← Nat.add_assoc, ← hk]; exact a3

theorem Sys.ActOrders.part {s : Sys F} : ∀ {ord : List Bool → Orders}, s.ActOrders ord → ∀ {q}, q ∈ s.parts →
    ∀ k, (Sys.comp q.2).ts.IsActions ((ord q.1).acts k) := by
  induction s with
  | comp c => intro ord h q hq k; cases List.mem_singleton.1 hq; exact h k
  | composition l r _ _ _ _ _ ihl ihr | conjunction l r _ _ ihl ihr | quotient l r _ _ _ _ ihl ihr =>
    intro ord h q hq k
    rcases List.mem_append.1 hq with hq | hq <;> obtain ⟨q, hq', rfl⟩ := List.mem_map.1 hq
    · exact ihl h.1 hq' k
    · exact ihr h.2 hq' k

/-! ## The states the searches stop at -/

theorem symStep_of {ts : TS F} {s : State F} {a : String} {trans : List (Transition F)} (hn : ts.next s.loc a = .ok trans)
    {t : Transition F} (ht : t ∈ trans) {ns ns' : State F} (hu : t.useTransition s = (true, ns))
    (he : ns.extrapolate ts = .ok ns') : ts.SymStep s a ns' :=
  ⟨trans, hn, t, ht, by unfold State.Usable; rw [hu], by rw [hu]; exact he⟩

theorem detTransitions_at {ts : TS F} {visit : State F → List (State F) → Res (Visit (DetFailure F) F)} {s : State F} {a : String}
    {trans : List (Transition F)} (hn : ts.next s.loc a = .ok trans) (ha : a ∈ ts.inputs ∨ a ∈ ts.outputs)
    (hr : ts.LooseReach s) {Q : DetFailure F → Prop} (hQ : Q ⟨s, a⟩)
    (hv : ∀ s p f r, ts.LooseReach s → visit s p = .ok (some f, r) → Q f) :
    ∀ {tl : List (Transition F)}, (∀ t ∈ tl, t ∈ trans) → ∀ {fed : F} {p r : List (State F)} {f : DetFailure F},
      detTransitions visit ts s a tl fed p = .ok (some f, r) → Q f := by
  intro tl
  induction tl with
  | nil => intro _ fed p r f h; cases h
  | cons t tl ih =>
    intro hsub fed p r f h
    rw [detTransitions] at h
    cases hu : t.useTransition s with
    | mk b ns =>
      rw [hu] at h
      cases b with
      | false => exact ih (fun t ht => hsub t (List.mem_cons_of_mem _ ht)) h
      | true =>
        dsimp only at h
        split at h
        · cases h; exact hQ
        · obtain ⟨ns', hns, h⟩ := bind_ok h
          obtain ⟨⟨o, p'⟩, hvis, h⟩ := bind_ok h
          cases o with
          | some x =>
            cases h
            exact hv _ _ _ _ (.step hr ha (symStep_of hn (hsub t (by simp)) hu hns)) hvis
          | none => exact ih (fun t ht => hsub t (List.mem_cons_of_mem _ ht)) h

theorem detHelper_at {ts : TS F} {ord : Nat → List String} (hord : ∀ k, ts.IsActions (ord k)) : ∀ (fuel : Nat) (s : State F)
    (p : List (State F)) (f : DetFailure F) (r : List (State F)), ts.LooseReach s →
    detHelper ts ord fuel s p = .ok (some f, r) → ts.LooseReach f.state ∧ (f.action ∈ ts.inputs ∨ f.action ∈ ts.outputs) := by
  intro fuel
  induction fuel with
  | zero => intro s p f r _ h; cases h
  | succ n ih =>
    intro s p f r hr h
    rw [detHelper] at h
    split at h
    · cases h
    have hmem : ∀ a ∈ ord p.length, a ∈ ts.inputs ∨ a ∈ ts.outputs := fun a ha => ((hord _).2 a).1 ha
    generalize ord p.length = as at h hmem
    generalize p ++ [s] = p' at h
    induction as generalizing p' with
    | nil => cases h
    | cons a as iha =>
      rw [detActions] at h
      obtain ⟨trans, hn, h⟩ := bind_ok h
      obtain ⟨⟨o, p''⟩, ht, h⟩ := bind_ok h
      cases o with
      | some x =>
        cases h
        exact detTransitions_at hn (hmem a (by simp)) hr ⟨hr, hmem a (by simp)⟩ (fun s p f r hs hv => ih s p f r hs hv)
          (fun _ h => h) ht
      | none => exact iha (fun a ha => hmem a (by simp [ha])) _ h

theorem checkDeterminism_at {ts : TS F} {ord : Nat → List String} (hord : ∀ k, ts.IsActions (ord k)) {fuel : Nat}
    {f : DetFailure F} (h : checkDeterminism ts ord fuel = .ok (some f)) :
    ts.LooseReach f.state ∧ (f.action ∈ ts.inputs ∨ f.action ∈ ts.outputs) := by
  obtain ⟨o, hi, h⟩ := bind_ok h
  cases o with
  | none => cases h
  | some s =>
    obtain ⟨⟨o, r⟩, hc, h⟩ := bind_ok h
    cases h
    exact detHelper_at hord fuel _ _ _ _ (.init hi) hc

theorem consInputTransitions_at {ts : TS F} {visit : State F → List (State F) → Res (Visit (ConsFailure F) F)} {s : State F}
    {a : String} {trans : List (Transition F)} (hn : ts.next s.loc a = .ok trans) (ha : a ∈ ts.inputs) (hr : ts.InputReach s)
    {Q : ConsFailure F → Prop} (hv : ∀ s p f r, ts.InputReach s → visit s p = .ok (some f, r) → Q f) :
    ∀ {tl : List (Transition F)}, (∀ t ∈ tl, t ∈ trans) → ∀ {p r : List (State F)} {f : ConsFailure F},
      consInputTransitions visit ts s tl p = .ok (some f, r) → Q f := by
  intro tl
  induction tl with
  | nil => intro _ p r f h; cases h
  | cons t tl ih =>
    intro hsub p r f h
    rw [consInputTransitions] at h
    cases hu : t.useTransition s with
    | mk b ns =>
      rw [hu] at h
      cases b with
      | false => exact ih (fun t ht => hsub t (List.mem_cons_of_mem _ ht)) h
      | true =>
        dsimp only at h
        obtain ⟨ns', hns, h⟩ := bind_ok h
        obtain ⟨⟨o, p'⟩, hvis, h⟩ := bind_ok h
        cases o with
        | some x =>
          cases h
          exact hv _ _ _ _ (.step hr ha (symStep_of hn (hsub t (by simp)) hu hns)) hvis
        | none => exact ih (fun t ht => hsub t (List.mem_cons_of_mem _ ht)) h

/-- The state is reported, and rightly so. -/
inductive ConsFailure.Right (ts : TS F) : ConsFailure F → Prop
  | inconsistent {s : State F} : ts.InputReach s → s.loc.isInconsistent = true → Right ts (.inconsistent s)
  | inconsistentFrom {s : State F} : ts.InputReach s → s.loc.isInconsistent = false → s.loc.isUniversal = false →
      (¬ ∃ w ∈ den s.zone, ∀ d : ℝ, 0 ≤ d → Reveaal.delay (dim F) w d ∈ den s.zone) →
      (∀ P, SymConsistent ts P → ∀ o ∈ ts.outputs, ∀ s', ts.SymStep s o s' → ¬ P s') → Right ts (.inconsistentFrom s)

theorem consHelper_at {ts : TS F} {ordI ordO : Nat → List String} (hI : ∀ k a, a ∈ ordI k → a ∈ ts.inputs)
    (hO : ∀ k, ∀ a ∈ ts.outputs, a ∈ ordO k) : ∀ (fuel : Nat) (s : State F) (p : List (State F)) (f : ConsFailure F)
    (r : List (State F)), ts.InputReach s → consHelper ts ordI ordO fuel s p = .ok (some f, r) → f.Right ts := by
  intro fuel
  induction fuel with
  | zero => intro s p f r _ h; cases h
  | succ n ih =>
    intro s p f r hr h
    rw [consHelper] at h
    split at h
    · cases h
    split at h
    · cases h
    rename_i hun
    split at h
    · rename_i hin
      cases h
      exact .inconsistent hr hin
    rename_i hin
    obtain ⟨⟨o, p'⟩, hins, h⟩ := bind_ok h
    cases o with
    | some y =>
      cases h
      have hmem : ∀ a ∈ ordI p.length, a ∈ ts.inputs := fun a ha => hI _ a ha
      generalize ordI p.length = as at hins hmem
      generalize p ++ [s] = q at hins
      induction as generalizing q with
      | nil => cases hins
      | cons a as iha =>
        rw [consInputs] at hins
        obtain ⟨trans, hn, hins⟩ := bind_ok hins
        obtain ⟨⟨o, p''⟩, ht, hins⟩ := bind_ok hins
        cases o with
        | some x =>
          cases hins
          exact consInputTransitions_at hn (hmem a (by simp)) hr (fun s p f r hs hv => ih s p f r hs hv) (fun _ h => h) ht
        | none => exact iha (fun a ha => hmem a (by simp [ha])) _ hins
    | none =>
      dsimp only at h
      split at h
      · cases h
      rename_i hd
      obtain ⟨⟨b, p''⟩, hout, h⟩ := bind_ok h
      cases b with
      | true => cases h
      | false =>
        cases h
        refine .inconsistentFrom hr (by simpa using hin) (by simpa using hun) (fun hw => hd ((canDelay_iff _).2 hw)) ?_
        intro P hP o ho s' hst
        exact consOutputs_fail (fun s p x r h => consHelper_fail hI hO hP n s p x r h) hout o (hO _ o ho) s' hst

/-! ## The reports -/

theorem symStep_isLoc {s : Sys F} (hs : s.Good) {st st' : State F} {a : String} (hl : s.IsLoc st.loc)
    (ha : a ∈ s.ts.inputs ∨ a ∈ s.ts.outputs) (h : s.ts.SymStep st a st') : s.IsLoc st'.loc := by
  obtain ⟨trans, hn, t, ht, hu, he⟩ := h
  obtain ⟨b, _, he⟩ := bind_ok he
  cases he
  have hg := hs.next_ok hl (Sys.hasAction_iff.2 ha) hn t ht
  have : (t.useTransition st).2.loc = t.target := by
    cases e : t.useTransition st with
    | mk b ns =>
      unfold State.Usable at hu
      rw [e] at hu
      cases hu
      rw [useTransition_true e]
  simp only [this]
  exact hg.1

theorem initial_isLoc {s : Sys F} (hs : s.Good) {s0 : State F} (hi : s.ts.initialState = .ok (some s0)) : s.IsLoc s0.loc := by
  obtain ⟨ol, h1, hinit⟩ := hs.initial
  have hi : s.initialState = _ := hi
  cases ol with
  | none => unfold Sys.initialState at hi; rw [h1] at hi; cases hi
  | some l =>
    have : s0.loc = l := by
      rcases Sys.initialState_spec (s := s) h1 with ⟨h2, _⟩ | ⟨z, h2, _⟩
      · have h2 : s.initialState = _ := h2
        rw [hi] at h2; cases h2
      · have h2 : s.initialState = _ := h2
        rw [hi] at h2; cases h2; rfl
    rw [this]
    exact hinit l rfl

theorem looseReach_isLoc {s : Sys F} (hs : s.Good) {st : State F} (h : s.ts.LooseReach st) : s.IsLoc st.loc := by
  induction h with
  | init hi => have := initial_isLoc hs hi; exact this
  | step _ ha hst ih => exact symStep_isLoc hs ih ha hst

theorem inputReach_isLoc {s : Sys F} (hs : s.Good) {st : State F} (h : s.ts.InputReach st) : s.IsLoc st.loc := by
  induction h with
  | init hi he =>
    obtain ⟨b, _, he⟩ := bind_ok he
    cases he
    have := initial_isLoc hs hi
    exact this
  | step _ ha hst ih => exact symStep_isLoc hs ih (.inl ha) hst

/-- The description of a state of a component instance. -/
theorem part_told {insts : List Component} {n : Nat} {k : Component} (hk : insts[n]? = some k)
    (hct : (k.decls.clocks.map (·.1)).Nodup) {order : List (LocId × LocTree F) → List (LocId × LocTree F)}
    (ho : ∀ l, (order l).Perm l) {x : CompComp F} (hx : CompComp.compile order k n = .ok x) (hdim : dim F ≤ 2 ^ 32)
    {ord : List (String × Nat) → List (String × Nat)} (hord : ∀ l, (ord l).Perm l) {st : State F}
    (hl : (Sys.comp x).IsLoc st.loc) : ∃ y m loc, SpecificState.ofState ord (.comp x) st = .ok y ∧ y.toProto = .ok m ∧
      y.Tells insts n k loc st.zone ∧ LocTree.simple k.decls loc = .ok st.loc ∧
      ∃ es, x.edges.lookup st.loc.id = some es ∧
        List.Forall₂ (fun (e : Edge) y => y.1 = e.action ∧ Transition.fromEdge k e = .ok y.2)
          (k.edges.filter fun e => e.source = loc.id) es := by
  obtain ⟨_, hname, hid, hdecls⟩ := compile_infos ho ho hx hx
  obtain ⟨loc, hloc, hs, hes⟩ := compile_next_exact ho hx hl
  obtain ⟨inv, hxe, _⟩ := simple_spec hs
  have hlid : st.loc.id = .simple loc.id := by rw [hxe]; rfl
  obtain ⟨qz, h4⟩ := zone_toProto hdim (specificClockMap ord (Sys.comp x).infos) st.zone
  refine ⟨⟨.component ⟨x.name, x.compId⟩ loc.id, specificDisjunction (specificClockMap ord (Sys.comp x).infos) (minimal st.zone)⟩,
    ⟨some (.leaf loc.id (some ⟨x.name, x.compId⟩)), some qz⟩, loc, ?_, ?_, ⟨hk, hloc, by rw [hname, hid], fun v hv => ?_⟩, hs, hes⟩
  · rw [SpecificState.ofState, hlid]; rfl
  · simp only [SpecificState.toProto, SpecificLoc.toProto, h4, ok_bind]
  · refine zone_described hv (fun a c hm => ?_) _ _
    obtain ⟨comp, hcomp, hm⟩ := List.mem_flatMap.1 (hmCollect_mem hm)
    obtain ⟨⟨name, i⟩, hp, e⟩ := List.mem_map.1 hm
    cases e
    cases List.mem_singleton.1 hcomp
    have hd : k.decls.clockIndex name = some i := lookup_nodup hct (by rw [← hdecls]; exact (hord _).mem_iff.1 hp)
    show (insts[x.compId]?.bind fun k => if k.name = x.name then (k.decls.clockIndex name).map v else none) = _
    rw [hid, hk, Option.bind_some, if_pos hname.symm, hd]
    rfl

theorem not_pairwise {α : Type} {R : α → α → Prop} {l : List α} (h : ¬ l.Pairwise R) :
    ∃ (i j : Nat) (a b : α), i < j ∧ l[i]? = some a ∧ l[j]? = some b ∧ ¬ R a b := by
  rw [List.pairwise_iff_getElem] at h
  push Not at h
  obtain ⟨i, j, hi, hj, hij, h⟩ := h
  exact ⟨i, j, _, _, hij, List.getElem?_eq_getElem hi, List.getElem?_eq_getElem hj, h⟩

theorem forall₂_pairwise {α β : Type} {S : α → β → Prop} {R : α → α → Prop} {T : β → β → Prop}
    (h : ∀ a b a' b', S a b → S a' b' → R a a' → T b b') : ∀ {l : List α} {m : List β}, List.Forall₂ S l m →
    l.Pairwise R → m.Pairwise T := by
  intro l m hf
  induction hf with
  | nil => intro _; exact .nil
  | @cons a b l m hab hf ih =>
    intro hp
    obtain ⟨h1, h2⟩ := List.pairwise_cons.1 hp
    refine List.pairwise_cons.2 ⟨fun b' hb' => ?_, ih h2⟩
    obtain ⟨i, hi, rfl⟩ := List.getElem_of_mem hb'
    have hi' : i < l.length := by rw [hf.length_eq]; exact hi
    exact h _ _ _ _ hab (hf.get (i := i) hi' hi) (h1 _ (List.getElem_mem hi'))

/-- Two transitions that can be taken come from two edges. -/
theorem clash_of {k : Component} {x : CompComp F}
    {loc : Location} {l : LocTree F} {es : List (String × Transition F)} (hlk : x.edges.lookup l.id = some es)
    (hf : List.Forall₂ (fun (e : Edge) y => y.1 = e.action ∧ Transition.fromEdge k e = .ok y.2)
      (k.edges.filter fun e => e.source = loc.id) es) {a : String} {trans : List (Transition F)}
    (hn : (Sys.comp x).ts.next l a = .ok trans) {v : Val}
    (h : ¬ trans.Pairwise fun t t' => ¬ (CanTake t v ∧ CanTake t' v)) : k.Clash F loc a v := by
  have hn : CompComp.next x l a = .ok trans := hn
  unfold CompComp.next at hn
  split at hn
  · cases hn
  split at hn
  · cases hn; exact absurd (List.pairwise_singleton _ _) h
  split at hn
  · cases hn; exact absurd (List.pairwise_singleton _ _) h
  rw [hlk] at hn
  cases hn
  by_contra hc
  refine h ?_
  rw [List.pairwise_map]
  refine List.Pairwise.imp_of_mem (R := fun y y' => y.1 = a → y'.1 = a → ¬ (CanTake y.2 v ∧ CanTake y'.2 v)) ?_
    (List.Pairwise.filter _ ?_)
  · intro y y' hy hy' hr
    exact hr (of_decide_eq_true (List.mem_filter.1 hy).2) (of_decide_eq_true (List.mem_filter.1 hy').2)
  refine forall₂_pairwise (R := fun e e' => e.action = a → e'.action = a → ∀ (t t' : Transition F),
    Transition.fromEdge k e = .ok t → Transition.fromEdge k e' = .ok t' → ¬ (CanTake t v ∧ CanTake t' v)) ?_ hf ?_
  · intro e y e' y' h1 h2 hr e1 e2
    exact hr (h1.1.symm.trans e1) (h2.1.symm.trans e2) _ _ h1.2 h2.2
  refine List.Pairwise.imp_of_mem (R := fun e e' => e.source = loc.id → e'.source = loc.id → e.action = a → e'.action = a →
    ∀ (t t' : Transition F), Transition.fromEdge k e = .ok t → Transition.fromEdge k e' = .ok t' → ¬ (CanTake t v ∧ CanTake t' v))
    ?_ (List.Pairwise.filter _ ?_)
  · intro e e' he he' hr
    exact hr (of_decide_eq_true (List.mem_filter.1 he).2) (of_decide_eq_true (List.mem_filter.1 he').2)
  by_contra hp
  obtain ⟨i, j, e, e', hij, h1, h2, h3⟩ := not_pairwise hp
  push Not at h3
  obtain ⟨s1, s2, a1, a2, t, t', f1, f2, c1, c2⟩ := h3
  exact hc ⟨i, j, e, e', t, t', hij, h1, h2, ⟨s1, a1, f1, c1⟩, s2, a2, f2, c2⟩

/-! ## The theorems -/

theorem compiled_actions {k : Component} {order : List (LocId × LocTree F) → List (LocId × LocTree F)} {n : Nat} {x : CompComp F}
    (hx : CompComp.compile order k n = .ok x) : x.inputs = k.specificActions .input ∧ x.outputs = k.specificActions .output := by
  unfold CompComp.compile CompComp.compileWith at hx
  split at hx
  · cases hx
  obtain ⟨locs, _, hx⟩ := bind_ok hx
  obtain ⟨es, _, hx⟩ := bind_ok hx
  cases hx
  exact ⟨rfl, rfl⟩

theorem mem_specific {k : Component} {d : SyncType} {a : String} :
    a ∈ k.specificActions d ↔ (∃ e ∈ k.edges, e.sync = d ∧ e.action = a) ∧ a ≠ "*" := by
  unfold Component.specificActions
  rw [mem_mkSet]
  simp only [List.mem_map, List.mem_filter, Bool.and_eq_true, decide_eq_true_eq]
  constructor
  · rintro ⟨e, ⟨he, h1, h2⟩, rfl⟩; exact ⟨⟨e, he, h1, rfl⟩, h2⟩
  · rintro ⟨⟨e, he, h1, rfl⟩, h2⟩; exact ⟨e, ⟨he, h1, h2⟩, rfl⟩

theorem det_told {insts : List Component} {n : Nat} {k : Component} (hk : insts[n]? = some k) (hkok : k.Ok (dim F))
    (hct : (k.decls.clocks.map (·.1)).Nodup) {order : List (LocId × LocTree F) → List (LocId × LocTree F)}
    (ho : ∀ l, (order l).Perm l) {x : CompComp F} (hx : CompComp.compile order k n = .ok x) (hdim : dim F ≤ 2 ^ 32)
    {ord : List (String × Nat) → List (String × Nat)} (hord : ∀ l, (ord l).Perm l) {acts : Nat → List String}
    (hacts : ∀ i, (Sys.comp x).ts.IsActions (acts i)) {fuel : Nat} {f : DetFailure F}
    (h : checkDeterminism (Sys.comp x).ts acts fuel = .ok (some f)) :
    ∃ y m loc, f.report ord (.comp x) = .ok y ∧ y.toProto = .ok m ∧ y.Told insts (Sys.comp x).ts f n k loc := by
  have hacc : (Sys.comp x).Accepted := .comp hkok ho hx
  obtain ⟨hr, ha⟩ := checkDeterminism_at hacts h
  obtain ⟨trans, hn, v, hv, hp⟩ := C12_failure_is_real _ hacc _ hacts fuel f h
  obtain ⟨y, m, loc, h1, h2, h3, h4, es, hlk, hf⟩ := part_told hk hct ho hx hdim hord (looseReach_isLoc hacc.good hr)
  obtain ⟨_, hname, _⟩ := compile_infos ho ho hx hx
  obtain ⟨ei, eo⟩ := compiled_actions hx
  have hstar : f.action ≠ "*" := by
    rcases ha with ha | ha
    · have ha : f.action ∈ x.inputs := ha
      rw [ei] at ha; exact (mem_specific.1 ha).2
    · have ha : f.action ∈ x.outputs := ha
      rw [eo] at ha; exact (mem_specific.1 ha).2
  refine ⟨⟨x.name, f.action, x.inputs.contains f.action, y⟩, ⟨x.name, f.action, some m⟩, loc, ?_, ?_, h3, ⟨hr, h4⟩, hname, ?_,
    v, hv, clash_of hlk hf hn hp⟩
  · rw [DetFailure.report, h1]; rfl
  · rw [DetReport.toProto, h2]; rfl
  · simp only [List.contains_iff_mem, ei, mem_specific, ne_eq, hstar, not_false_eq_true, and_true]

/-- The failure of a determinism check can be reported and sent, and the report is right.  The component instances of the
recipe have the numbers from `i` on. -/
theorem det_reported {r : Recipe} {env : CompileEnv F} {i j : Nat} {s : Sys F} (he : env.Perm) (hok : r.Ok (dim F))
    (hr : r.ClockTables) (hs : r.compile env i = .ok (s, j)) (hdim : dim F ≤ 2 ^ 32) {insts : List Component}
    (hin : ∀ n k, r.components[n]? = some k → insts[i + n]? = some k)
    (ord : List (String × Nat) → List (String × Nat)) (hord : ∀ l, (ord l).Perm l) (checks : List Bool → Orders)
    (hc : s.ActOrders checks) (fuel : Nat) (p : Sys F) (f : DetFailure F)
    (h : s.detFailure checks fuel = .ok (some (p, f))) :
    ∃ x m n k loc, f.report ord p = .ok x ∧ x.toProto = .ok m ∧
      (r.components[n]? = some k ∧ p.IsInstance (i + n) k) ∧ x.Told insts p.ts f (i + n) k loc := by
  obtain ⟨q, hq, rfl, h'⟩ := Sys.detFailure_part h
  obtain ⟨n, k, order, h1, h2, h3⟩ := part_compiled he hs hq
  have hm := List.mem_of_getElem? h1
  obtain ⟨y, m, loc, h4, h5, h6⟩ := det_told (hin n k h1) (hok.1 k hm) (hr k hm) h2 h3 hdim hord (hc.part hq) h'
  exact ⟨y, m, n, k, loc, h4, h5, ⟨h1, _, _, h2, h3, rfl⟩, h6⟩

/-- **C72 (determinism).** If the determinism query fails, the failure can be reported and sent, and the report is about one
of the component instances of the query: it has its name and number, a location of it, exactly the valuations of the state at
which the search stopped, and an action of it, which is called an input exactly if it is one; and somewhere in that location
two edges with this action can be taken.  Missing from the full property: that they can be taken in the state that is reported,
which is false (`C72_violated_state`). -/
theorem C72_determinism_partial {r : Recipe} {env : CompileEnv F} {j : Nat} {s : Sys F} (he : env.Perm) (hok : r.Ok (dim F))
    (hr : r.ClockTables) (hs : r.compile env 0 = .ok (s, j)) (hdim : dim F ≤ 2 ^ 32)
    (ord : List (String × Nat) → List (String × Nat)) (hord : ∀ l, (ord l).Perm l) (checks : List Bool → Orders)
    (hc : s.ActOrders checks) (fuel : Nat) (p : Sys F) (f : DetFailure F)
    (h : s.detFailure checks fuel = .ok (some (p, f))) :
    ∃ x m n k loc, f.report ord p = .ok x ∧ x.toProto = .ok m ∧ x.Told r.components p.ts f n k loc := by
  obtain ⟨x, m, n, k, loc, h1, h2, _, h3⟩ := det_reported (insts := r.components) he hok hr hs hdim
    (fun n k h => by rw [Nat.zero_add]; exact h) ord hord checks hc fuel p f h
  exact ⟨x, m, _, k, loc, h1, h2, h3⟩

/-- The same for the checks of a consistency query. -/
theorem cons_reported {r : Recipe} {env : CompileEnv F} {i j : Nat} {s : Sys F} (he : env.Perm) (hok : r.Ok (dim F))
    (hr : r.ClockTables) (hs : r.compile env i = .ok (s, j)) (hdim : dim F ≤ 2 ^ 32) {insts : List Component}
    (hin : ∀ n k, r.components[n]? = some k → insts[i + n]? = some k)
    (ord : List (String × Nat) → List (String × Nat)) (hord : ∀ l, (ord l).Perm l) (checks : List Bool → Orders)
    (hc : s.ActOrders checks) (hI : ∀ q ∈ s.parts, ∀ i a, a ∈ (checks q.1).inputs i → a ∈ q.2.inputs)
    (hO : ∀ q ∈ s.parts, ∀ i, ∀ a ∈ q.2.outputs, a ∈ (checks q.1).outputs i) (fuel : Nat) (p : Sys F) (f : ConsFailure F)
    (h : s.precheckFailure checks fuel = .ok (some (p, f))) :
    ∃ x m n k, f.report ord p = .ok x ∧ x.toProto = .ok m ∧ (r.components[n]? = some k ∧ p.IsInstance (i + n) k) ∧
      x.Told insts p.ts (i + n) k f := by
  obtain ⟨o, hd, h⟩ := bind_ok h
  cases o with
  | some g =>
    obtain ⟨p', g⟩ := g
    cases h
    obtain ⟨x, m, n, k, loc, h1, h2, h3, h4⟩ := det_reported he hok hr hs hdim hin ord hord checks hc fuel p g hd
    exact ⟨.notDeterministic x, ⟨m.system, some (.determinism m)⟩, n, k, by rw [ConsFailure.report, h1]; rfl,
      by rw [ConsReport.toProto, h2]; rfl, h3, .notDeterministic h4⟩
  | none =>
    obtain ⟨q, hq, rfl, h'⟩ := Sys.consFailure_part h
    obtain ⟨n, k, order, h1, h2, h3⟩ := part_compiled he hs hq
    have h1' := hin n k h1
    have hq' : r.components[n]? = some k ∧ (Sys.comp q.2).IsInstance (i + n) k := ⟨h1, _, _, h2, h3, rfl⟩
    have hm := List.mem_of_getElem? h1
    obtain ⟨_, hname, _⟩ := compile_infos h2 h2 h3 h3
    have hgood := (Sys.Accepted.comp (hok.1 k hm) h2 h3).good
    obtain ⟨o, hi, h''⟩ := bind_ok h'
    cases o with
    | none =>
      cases h''
      exact ⟨.noInitialState q.2.name, _, n, k, rfl, rfl, hq', by rw [hname]; exact .noInitialState h1' hi⟩
    | some s0 =>
      obtain ⟨s', hex, h⟩ := bind_ok h''
      obtain ⟨⟨o, R⟩, hh, h⟩ := bind_ok h
      cases h
      have hright := consHelper_at (ts := (Sys.comp q.2).ts) (hI q hq) (hO q hq) fuel s' [] f R (.init hi hex) hh
      cases hright with
      | @inconsistent st hr' hinc =>
        obtain ⟨y, m, loc, k1, k2, k3, k4, _⟩ := part_told h1' (hr k hm) h2 h3 hdim hord (inputReach_isLoc hgood hr')
        refine ⟨.inconsistentLoc q.2.name y, ⟨q.2.name, some (.failureState m)⟩, n, k, by rw [ConsFailure.report, k1]; rfl,
          by rw [ConsReport.toProto, k2]; rfl, hq', ?_⟩
        rw [hname]
        refine .inconsistent k3 k4 hr' ?_
        obtain ⟨inv, e, _⟩ := simple_spec k4
        rw [e] at hinc
        simpa [LocTree.isInconsistent, LocTree.ty, decide_eq_true_eq] using of_decide_eq_true hinc
      | @inconsistentFrom st hr' _ _ hdel hout =>
        obtain ⟨y, m, loc, k1, k2, k3, k4, _⟩ := part_told h1' (hr k hm) h2 h3 hdim hord (inputReach_isLoc hgood hr')
        refine ⟨.inconsistentFrom q.2.name y, ⟨q.2.name, some (.failureState m)⟩, n, k, by rw [ConsFailure.report, k1]; rfl,
          by rw [ConsReport.toProto, k2]; rfl, hq', ?_⟩
        rw [hname]
        exact .inconsistentFrom k3 k4 hr' hdel hout

/-- **C72 (consistency).** If the consistency query fails, the failure can be reported and sent, and the report is right
about one of the component instances of the query.  Missing from the full property: as `C72_determinism_partial`; and
"consistent" is meant for the symbolic states of the search (see C18). -/
theorem C72_consistency_partial {r : Recipe} {env : CompileEnv F} {j : Nat} {s : Sys F} (he : env.Perm) (hok : r.Ok (dim F))
    (hr : r.ClockTables) (hs : r.compile env 0 = .ok (s, j)) (hdim : dim F ≤ 2 ^ 32)
    (ord : List (String × Nat) → List (String × Nat)) (hord : ∀ l, (ord l).Perm l) (checks : List Bool → Orders)
    (hc : s.ActOrders checks) (hI : ∀ q ∈ s.parts, ∀ i a, a ∈ (checks q.1).inputs i → a ∈ q.2.inputs)
    (hO : ∀ q ∈ s.parts, ∀ i, ∀ a ∈ q.2.outputs, a ∈ (checks q.1).outputs i) (fuel : Nat) (p : Sys F) (f : ConsFailure F)
    (h : s.precheckFailure checks fuel = .ok (some (p, f))) :
    ∃ x m n k, f.report ord p = .ok x ∧ x.toProto = .ok m ∧ x.Told r.components p.ts n k f := by
  obtain ⟨x, m, n, k, h1, h2, _, h3⟩ := cons_reported (insts := r.components) he hok hr hs hdim
    (fun n k h => by rw [Nat.zero_add]; exact h) ord hord checks hc hI hO fuel p f h
  exact ⟨x, m, _, k, h1, h2, h3⟩

/-! ## Examples and the violation -/

/-- In `M` two edges with `a` can be taken as long as `x ≤ 5`, but `M` is only entered when `x ≥ 10`. -/
def exDull : Component := ⟨"Dull", ⟨[], [("x", 2)]⟩, [⟨"L", none, .initial, "NORMAL"⟩, ⟨"M", none, .normal, "NORMAL"⟩],
  [⟨"e", "L", "M", .input, some (.ge (.var "x") (.int 10)), none, "b"⟩,
   ⟨"f", "M", "M", .input, some (.or (.le (.var "x") (.int 5)) (.ge (.var "x") (.int 20))), none, "a"⟩,
   ⟨"g", "M", "M", .input, some (.le (.var "x") (.int 15)), none, "a"⟩]⟩

theorem exDull_ok : exDull.Ok (dim Fed4) := Component.ok_of_okB (by decide)

/-- `A || Dull` -/
def exRecipeDull : Recipe := .composition (.component exA none) (.component exDull none)

def exSysDull : Sys Fed4 := (getOk (exRecipeDull.compile exEnvAA 0) (by decide +kernel)).1

theorem exSysDull_eq : exRecipeDull.compile exEnvAA 0 = .ok (exSysDull, 2) := by
  have := getOk_eq (r := exRecipeDull.compile exEnvAA 0) (by decide +kernel)
  rw [this]; rfl

theorem exRecipeDull_ok : exRecipeDull.Ok (dim Fed4) := by
  refine ⟨fun c hc => ?_, fun q hq => by cases hq⟩
  simp only [exRecipeDull, Recipe.components, List.cons_append, List.nil_append, List.mem_cons, List.not_mem_nil,
    or_false] at hc
  rcases hc with rfl | rfl
  exacts [exA_ok, exDull_ok]

theorem exRecipeDull_tables : exRecipeDull.ClockTables := by
  intro c hc
  simp only [exRecipeDull, Recipe.components, List.cons_append, List.nil_append, List.mem_cons, List.not_mem_nil,
    or_false] at hc
  rcases hc with rfl | rfl <;> decide

/-- The orders in which the actions of `A` and `Dull` are visited. -/
def exDullOrders : List Bool → Orders := fun p => if p = [true] then ⟨fun _ => ["b", "a"], fun _ => ["b", "a"], fun _ => []⟩
  else ⟨fun _ => ["go", "out"], fun _ => ["go"], fun _ => ["out"]⟩

theorem exSysDull_parts : ∃ l r a b c d e, exSysDull = .composition (.comp l) (.comp r) a b c d e ∧
    (l.inputs = ["go"] ∧ l.outputs = ["out"]) ∧ r.inputs = ["b", "a"] ∧ r.outputs = [] := by
  have h : (match exSysDull with
    | .composition (.comp l) (.comp r) _ _ _ _ _ => decide ((l.inputs = ["go"] ∧ l.outputs = ["out"]) ∧ r.inputs = ["b", "a"] ∧
        r.outputs = [])
    | _ => false) = true := by decide +kernel
  revert h
  generalize exSysDull = s
  intro h
  split at h
  · exact ⟨_, _, _, _, _, _, _, rfl, of_decide_eq_true h⟩
  · cases h

theorem exSysDull_orders : exSysDull.ActOrders exDullOrders := by
  obtain ⟨l, r, a, b, c, d, e, h, ⟨h1, h2⟩, h3, h4⟩ := exSysDull_parts
  rw [h]
  refine ⟨fun _ => ⟨by simp [exDullOrders], fun x => ?_⟩, fun _ => ⟨by simp [exDullOrders], fun x => ?_⟩⟩
  · show _ ↔ x ∈ l.inputs ∨ x ∈ l.outputs
    rw [h1, h2]; simp [exDullOrders]
  · show _ ↔ x ∈ r.inputs ∨ x ∈ r.outputs
    rw [h3, h4]; simp [exDullOrders]

def exDullF : Transition Fed4 := getOk (Transition.fromEdge exDull ⟨"f", "M", "M", .input,
  some (.or (.le (.var "x") (.int 5)) (.ge (.var "x") (.int 20))), none, "a"⟩) (by decide +kernel)

def exDullG : Transition Fed4 := getOk (Transition.fromEdge exDull ⟨"g", "M", "M", .input,
  some (.le (.var "x") (.int 15)), none, "a"⟩) (by decide +kernel)

theorem exSysDull_fails : ∃ p f, exSysDull.detFailure exDullOrders 10 = .ok (some (p, f)) ∧ f.action = "a" ∧
    f.state.loc.id = .simple "M" ∧ isEmpty f.state.zone = false ∧
    isEmpty (inter f.state.zone (inter exDullF.guard exDullG.guard)) = true := by
  have h : (match exSysDull.detFailure exDullOrders 10 with
    | .ok (some (_, f)) => decide (f.action = "a" ∧ f.state.loc.id = .simple "M" ∧ isEmpty f.state.zone = false ∧
        isEmpty (inter f.state.zone (inter exDullF.guard exDullG.guard)) = true)
    | _ => false) = true := by decide +kernel
  revert h
  generalize exSysDull.detFailure exDullOrders 10 = r
  intro h
  split at h
  · exact ⟨_, _, rfl, of_decide_eq_true h⟩
  · cases h

/-- The full property is false: for `A || Dull` the determinism query fails and reports a state of `Dull` and an action
with which, in every valuation of that state, at most one edge can be taken. -/
theorem C72_violated_state : ∃ p f x loc, exSysDull.detFailure exDullOrders 10 = .ok (some (p, f)) ∧
    f.report id p = .ok x ∧ x.Told exRecipeDull.components p.ts f 1 exDull loc ∧ (den f.state.zone).Nonempty ∧
    ∀ v, x.state.Holds exRecipeDull.components v → Valid (dim Fed4) v → ¬ exDull.Clash Fed4 loc x.action v := by
  obtain ⟨p, f, h, ha, hl, hne, hem⟩ := exSysDull_fails
  obtain ⟨x, m, n, k, loc, h1, -, h3⟩ := C72_determinism_partial exEnvAA_perm exRecipeDull_ok exRecipeDull_tables exSysDull_eq
    (by decide) id (fun _ => .refl _) exDullOrders exSysDull_orders 10 p f h
  obtain ⟨inv, e, _⟩ := simple_spec h3.found.2
  have hid : loc.id = "M" := by
    rw [e] at hl
    exact LocId.simple.inj hl
  have hx : x.action = "a" := by
    obtain ⟨y, _, e⟩ := bind_ok h1
    cases e
    exact ha
  have hk := h3.state.instance_
  have hloc := h3.state.location
  have hn : n = 1 := by
    rcases n with _ | _ | n
    · cases hk
      simp only [exA, List.mem_cons, List.not_mem_nil, or_false] at hloc
      rcases hloc with rfl | rfl
      · exact absurd hid (by decide)
      · exact absurd hid (by decide)
    · rfl
    · cases hk
  subst hn
  cases hk
  refine ⟨p, f, x, loc, h, h1, h3, ?_, ?_⟩
  · rw [Set.nonempty_iff_ne_empty]
    intro hz
    rw [(isEmpty_iff _).2 hz] at hne
    cases hne
  · intro v hv hval hc
    rw [hx] at hc
    have hv := (h3.state.zone v hval).2 hv
    obtain ⟨i, j, e, e', t, t', hij, he, he', ⟨s1, a1, f1, c1⟩, s2, a2, f2, c2⟩ := hc
    rw [hid] at s1 s2
    have hi : i ≠ 0 := by
      rintro rfl
      cases he
      exact absurd s1 (by decide)
    have hj : j < 3 := by
      have := (List.getElem?_eq_some_iff.1 he').1
      exact this
    obtain rfl : i = 1 := by omega
    obtain rfl : j = 2 := by omega
    cases he
    cases he'
    have k1 : Transition.fromEdge exDull _ = .ok exDullF := getOk_eq _
    have k2 : Transition.fromEdge exDull _ = .ok exDullG := getOk_eq _
    have := k1.symm.trans f1
    cases this
    have := k2.symm.trans f2
    cases this
    have hem := (isEmpty_iff _).1 hem
    rw [den_inter, den_inter] at hem
    have : v ∈ (∅ : Set Val) := by rw [← hem]; exact ⟨hv, c1.1, c2.1⟩
    exact this

/-- An input leads to an inconsistent location. -/
def exFragile : Component := ⟨"Fragile", ⟨[], [("x", 2)]⟩,
  [⟨"L", none, .initial, "NORMAL"⟩, ⟨"I", none, .inconsistent, "NORMAL"⟩],
  [⟨"e", "L", "I", .input, some (.ge (.var "x") (.int 3)), none, "b"⟩]⟩

/-- `A || Fragile` -/
def exRecipeFragile : Recipe := .composition (.component exA none) (.component exFragile none)

def exSysFragile : Sys Fed4 := (getOk (exRecipeFragile.compile exEnvAA 0) (by decide +kernel)).1

theorem exSysFragile_eq : exRecipeFragile.compile exEnvAA 0 = .ok (exSysFragile, 2) := by
  have := getOk_eq (r := exRecipeFragile.compile exEnvAA 0) (by decide +kernel)
  rw [this]; rfl

/-- The orders in which the actions of `A` and `Fragile` are visited. -/
def exFragileOrders : List Bool → Orders := fun p => if p = [true] then ⟨fun _ => ["b"], fun _ => ["b"], fun _ => []⟩
  else ⟨fun _ => ["go", "out"], fun _ => ["go"], fun _ => ["out"]⟩

theorem exSysFragile_parts : ∃ l r a b c d e, exSysFragile = .composition (.comp l) (.comp r) a b c d e ∧
    (l.inputs = ["go"] ∧ l.outputs = ["out"]) ∧ r.inputs = ["b"] ∧ r.outputs = [] := by
  have h : (match exSysFragile with
    | .composition (.comp l) (.comp r) _ _ _ _ _ => decide ((l.inputs = ["go"] ∧ l.outputs = ["out"]) ∧ r.inputs = ["b"] ∧
        r.outputs = [])
    | _ => false) = true := by decide +kernel
  revert h
  generalize exSysFragile = s
  intro h
  split at h
  · exact ⟨_, _, _, _, _, _, _, rfl, of_decide_eq_true h⟩
  · cases h

/-- Non-vacuity: the hypotheses of `C72_consistency_partial` hold for `A || Fragile`, and the report is that location `I` of
`Fragile`, the second instance, is inconsistent. -/
example : exRecipeFragile.Ok (dim Fed4) ∧ exRecipeFragile.ClockTables ∧ exSysFragile.ActOrders exFragileOrders ∧
    (∀ q ∈ exSysFragile.parts, ∀ i a, a ∈ (exFragileOrders q.1).inputs i → a ∈ q.2.inputs) ∧
    (∀ q ∈ exSysFragile.parts, ∀ i, ∀ a ∈ q.2.outputs, a ∈ (exFragileOrders q.1).outputs i) ∧
    ∃ p f y, exSysFragile.precheckFailure exFragileOrders 10 = .ok (some (p, f)) ∧
      f.report id p = .ok (.inconsistentLoc "Fragile" y) ∧ y.locations = .component ⟨"Fragile", 1⟩ "I" := by
  obtain ⟨l, r, a, b, c, d, e, h, ⟨h1, h2⟩, h3, h4⟩ := exSysFragile_parts
  refine ⟨⟨fun c hc => ?_, fun q hq => by cases hq⟩, fun c hc => ?_, ?_, ?_, ?_, ?_⟩
  · simp only [exRecipeFragile, Recipe.components, List.cons_append, List.nil_append, List.mem_cons, List.not_mem_nil,
      or_false] at hc
    rcases hc with rfl | rfl
    exacts [exA_ok, Component.ok_of_okB (by decide)]
  · simp only [exRecipeFragile, Recipe.components, List.cons_append, List.nil_append, List.mem_cons, List.not_mem_nil,
      or_false] at hc
    rcases hc with rfl | rfl <;> decide
  · rw [h]
    refine ⟨fun _ => ⟨by simp [exFragileOrders], fun x => ?_⟩, fun _ => ⟨by simp [exFragileOrders], fun x => ?_⟩⟩
    · show _ ↔ x ∈ l.inputs ∨ x ∈ l.outputs
      rw [h1, h2]; simp [exFragileOrders]
    · show _ ↔ x ∈ r.inputs ∨ x ∈ r.outputs
      rw [h3, h4]; simp [exFragileOrders]
  · rw [h]
    intro q hq i x hx
    have hq : q ∈ [([false], l), ([true], r)] := hq
    simp only [List.mem_cons, List.not_mem_nil, or_false] at hq
    rcases hq with rfl | rfl
    · rw [h1]; simpa [exFragileOrders] using hx
    · rw [h3]; simpa [exFragileOrders] using hx
  · rw [h]
    intro q hq i x hx
    have hq : q ∈ [([false], l), ([true], r)] := hq
    simp only [List.mem_cons, List.not_mem_nil, or_false] at hq
    rcases hq with rfl | rfl
    · rw [h2] at hx; simpa [exFragileOrders] using hx
    · rw [h4] at hx; simpa [exFragileOrders] using hx
  · have h : (match exSysFragile.precheckFailure exFragileOrders 10 with
      | .ok (some (p, f)) => (match f.report id p with
        | .ok (.inconsistentLoc n y) => decide (n = "Fragile" ∧ y.locations = .component ⟨"Fragile", 1⟩ "I")
        | _ => false)
      | _ => false) = true := by decide +kernel
    revert h
    generalize exSysFragile.precheckFailure exFragileOrders 10 = r
    intro h
    split at h
    · split at h
      · rename_i hr
        obtain ⟨rfl, h'⟩ := of_decide_eq_true h
        exact ⟨_, _, _, rfl, hr, h'⟩
      · cases h
    · cases h

end Reveaal
