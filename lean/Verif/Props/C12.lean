import Verif.Lemmas.Determinism
import Verif.Lemmas.Run
import Verif.Props.C06
import Verif.Examples

/-! # C12: a passed determinism check means the system is deterministic

The check is run on single components in the tool (`Sys.checkDet`), but the function is generic; the
theorems hold for every accepted system it is run on. -/

namespace Reveaal
open ZoneLib
variable {F : Type} [ZoneLib F]

/-- In the concrete states the system gets into, no transition assigns two different values to one
clock. -/
def TS.UpdatesAgree (ts : TS F) : Prop :=
  ∀ l v a trans, ts.Reach l v → ts.hasAction a = true → ts.next l a = .ok trans →
    ∀ t ∈ trans, NoConflict t.updates

/-- If the determinism check answers that a system is deterministic, then in every concrete state the
system gets into, for every action, no two transitions can be taken.
Missing from the full property: systems where a reachable transition assigns two different values to one
clock; for these the claim is false (`C12_violated_conflicting_updates`). -/
theorem C12_deterministic_partial (s : Sys F) (hs : s.Accepted) (ord : Nat → List String)
    (hord : ∀ k, s.ts.IsActions (ord k)) (hup : s.ts.UpdatesAgree) (fuel : Nat)
    (h : checkDeterminism s.ts ord fuel = .ok none) : s.ts.Deterministic := by
  have hs := hs.good
  intro l v hr
  unfold checkDeterminism at h
  obtain ⟨o, hi, h⟩ := bind_ok h
  obtain ⟨ol, h1, hinit⟩ := hs.initial
  obtain ⟨l0, hl0, hz0, hrun⟩ := Sys.reach_run hr
  rcases Sys.initialState_spec hl0 with ⟨_, he⟩ | ⟨z, hz, _⟩
  · exact absurd (show zeroVal ∈ den (init : F) ∩ InvSet l0 from ⟨Sys.zero_init, hz0⟩) (by rw [he]; simp)
  rw [hz] at hi; cases hi
  obtain ⟨⟨o, P⟩, hd, h⟩ := bind_ok h
  cases h
  have hl0' : s.IsLoc l0 := by
    have hl0 : s.initialLoc = _ := hl0
    rw [h1] at hl0; cases hl0
    exact hinit _ rfl
  obtain ⟨⟨_, hproc⟩, q0, hq0, hq0l, hq0z⟩ := detHelper_spec hord fuel _ _ _ hd
  have hloc := detHelper_locs hs fuel _ _ _ _ hd hl0' (by simp) (fun k a ha => by
    have := ((hord k).2 a).1 ha
    simpa [Sys.hasAction, TS.hasAction, Sys.ts] using this)
  have hq0e : q0.loc = l0 := (hs.eqv_eq hl0' (hloc q0 hq0) hq0l).symm
  have hproc : ∀ p ∈ P, Processed s.ts P p := fun p hp => (hproc p hp).resolve_left (by simp)
  have hun : ∀ v, Valid (dim F) v → v ∈ den q0.zone := fun v hv => hq0z (by rw [den_univ]; exact hv)
  obtain ⟨p, hp, rfl, hv, -⟩ := Sys.run_covered hs hloc (P := P)
    (fun p hp a trans ha htr t ht hu => by
      obtain ⟨tr, h1, h2⟩ := hproc p hp a ha
      rw [htr] at h1; cases h1
      obtain ⟨htl, hg⟩ := hs.next_ok (hloc p hp) ha htr t ht
      obtain ⟨hl, hz⟩ := (C05_use_transition t p hg.upd).2 hu
      obtain ⟨ns, hns, q, hq, hql, hqz⟩ := h2.next t ht hu
      obtain ⟨b, _, hns⟩ := bind_ok hns
      cases hns
      rw [hl] at hql
      refine ⟨q, hq, (hs.eqv_eq htl (hloc q hq) hql).symm, ?_⟩
      rw [← hz]
      exact (extrapolate_sup _ _).trans hqz)
    ⟨q0, hq0, hq0e, hun _ Sys.zeroVal_valid, fun d hd => hun _ (delay_valid Sys.zeroVal_valid hd.1)⟩ hrun
  intro a trans ha htr
  obtain ⟨tr, h2, h3⟩ := hproc p hp a ha
  rw [htr] at h2; cases h2
  refine h3.disjoint.imp_of_mem fun {t t'} ht ht' hdis hc => ?_
  have usable : ∀ t ∈ trans, CanTake t v → (t.useTransition p).1 = true ∧
      v ∈ den (p.loc.applyInvariants t.allowed) := by
    intro t ht hc
    have hg := (hs.next_ok (hloc p hp) ha htr t ht).2
    refine ⟨(C05_use_transition t p hg.upd).1.2 ⟨_, v, hv, hc.1, 0, le_refl _, rfl, ?_⟩, ?_⟩
    · rw [delay_zero]; exact hc.2
    · exact mem_applyInvariants.2 ⟨(mem_allowed hg.upd (hup _ _ _ _ hr ha htr t ht)).2 hc, Sys.Reach.inv hr⟩
  obtain ⟨u1, a1⟩ := usable t ht hc.1
  obtain ⟨u2, a2⟩ := usable t' ht' hc.2
  exact hdis u1 u2 v a1 a2

/-! ## A negative verdict names a real ambiguity -/

/-- In location `l`, at some valuation inside the invariant, the action is ambiguous. -/
def AmbiguousAt (ts : TS F) (l : LocTree F) (a : String) : Prop :=
  ∃ trans, ts.next l a = .ok trans ∧ ∃ v ∈ InvSet l,
    ¬ trans.Pairwise fun t t' => ¬ (CanTake t v ∧ CanTake t' v)

theorem detTransitions_fail {s : Sys F}
    {visit : State F → List (State F) → Res (Visit (DetFailure F) F)} {st : State F} {a : String}
    {trans : List (Transition F)} (hn : s.ts.next st.loc a = .ok trans)
    (hg : ∀ t ∈ trans, UpdatesOk t.updates (dim F))
    (hv : ∀ t ∈ trans, ∀ z p f r, visit ⟨t.target, z⟩ p = .ok (some f, r) →
      AmbiguousAt s.ts f.loc f.action) : ∀ {pre tl : List (Transition F)} {fed : F}
    {p r : List (State F)} {f : DetFailure F}, pre ++ tl = trans →
    (∀ v ∈ den fed, v ∈ InvSet st.loc ∧ ∃ t ∈ pre, CanTake t v) →
    detTransitions visit s.ts st a tl fed p = .ok (some f, r) → AmbiguousAt s.ts f.loc f.action := by
  intro pre tl
  induction tl generalizing pre with
  | nil => intro fed p r f _ _ h; simp [detTransitions] at h
  | cons t tl ih =>
    intro fed p r f hsplit hfed h
    have ht : t ∈ trans := by rw [← hsplit]; simp
    have hsplit' : (pre ++ [t]) ++ tl = trans := by rw [← hsplit]; simp
    rw [detTransitions] at h
    cases hu : t.useTransition st with
    | mk b ns =>
      rw [hu] at h
      cases b with
      | false =>
        refine ih hsplit' (fun v hv => ?_) h
        obtain ⟨h1, t', ht', h2⟩ := hfed v hv
        exact ⟨h1, t', by simp [ht'], h2⟩
      | true =>
        dsimp only at h
        split at h
        · rename_i hi
          obtain ⟨v, hv1, hv2⟩ := (hasIntersection_iff _ _).1 hi
          obtain ⟨hinv, t', ht', hc'⟩ := hfed v hv2
          cases h
          refine ⟨trans, hn, v, hinv, fun hp => ?_⟩
          have hc : CanTake t v := C06_allowed_sound t (hg t ht) (mem_applyInvariants.1 hv1).1
          rw [← hsplit, List.pairwise_append] at hp
          exact hp.2.2 t' ht' t (by simp) ⟨hc', hc⟩
        · obtain ⟨ns', hns, h⟩ := bind_ok h
          obtain ⟨⟨o, p'⟩, hvis, h⟩ := bind_ok h
          cases o with
          | some x =>
            cases h
            have hl := useTransition_true hu
            subst hl
            obtain ⟨b, _, hns⟩ := bind_ok hns
            cases hns
            exact hv t ht _ _ _ _ hvis
          | none =>
            refine ih hsplit' (fun v hv => ?_) h
            rw [den_append] at hv
            rcases hv with hv | hv
            · obtain ⟨h1, t', ht', h2⟩ := hfed v hv
              exact ⟨h1, t', by simp [ht'], h2⟩
            · obtain ⟨h1, h2⟩ := mem_applyInvariants.1 hv
              exact ⟨h2, t, by simp, C06_allowed_sound t (hg t ht) h1⟩

theorem detHelper_fail {s : Sys F} (hs : s.Good) {ord : Nat → List String}
    (hord : ∀ k, s.ts.IsActions (ord k)) : ∀ (fuel : Nat) (st : State F), s.IsLoc st.loc →
    ∀ (p : List (State F)) (f : DetFailure F) (r : List (State F)),
      detHelper s.ts ord fuel st p = .ok (some f, r) → AmbiguousAt s.ts f.loc f.action := by
  intro fuel
  induction fuel with
  | zero => intro st _ p f r h; cases h
  | succ n ih =>
    intro st hst p f r h
    rw [detHelper] at h
    split at h
    · cases h
    · have hmem : ∀ a ∈ ord p.length, s.ts.hasAction a = true := fun a ha => by
        simpa [TS.hasAction] using ((hord _).2 a).1 ha
      generalize ord p.length = as at h hmem
      generalize p ++ [st] = p' at h
      induction as generalizing p' with
      | nil => simp [detActions] at h
      | cons a as iha =>
        rw [detActions] at h
        obtain ⟨trans, hn, h⟩ := bind_ok h
        obtain ⟨⟨o, p''⟩, ht, h⟩ := bind_ok h
        cases o with
        | some x =>
          cases h
          have hg := hs.next_ok hst (hmem a (by simp)) hn
          exact detTransitions_fail hn (fun t ht => (hg t ht).2.upd)
            (fun t ht z p f r hv => ih ⟨t.target, z⟩ (hg t ht).1 p f r hv) (pre := []) rfl
            (by rw [den_empty]; simp) ht
        | none => exact iha (fun a ha => hmem a (by simp [ha])) _ h

/-- If the check answers that a system is not deterministic, then at the location and action it names
there is a valuation inside the invariant for which two transitions can be taken (the check looks at all
valuations of the location's invariant, not only at reachable ones). -/
theorem C12_failure_is_real (s : Sys F) (hs : s.Accepted) (ord : Nat → List String)
    (hord : ∀ k, s.ts.IsActions (ord k)) (fuel : Nat) (f : DetFailure F)
    (h : checkDeterminism s.ts ord fuel = .ok (some f)) : AmbiguousAt s.ts f.loc f.action := by
  have hs := hs.good
  unfold checkDeterminism at h
  obtain ⟨o, hi, h⟩ := bind_ok h
  cases o with
  | none => cases h
  | some s0 =>
    obtain ⟨⟨o, P⟩, hd, h⟩ := bind_ok h
    cases h
    refine detHelper_fail hs hord fuel _ ?_ _ _ _ hd
    obtain ⟨ol, h1, hinit⟩ := hs.initial
    have hi : s.initialState = _ := hi
    cases ol with
    | none => unfold Sys.initialState at hi; rw [h1] at hi; cases hi
    | some l =>
      have : s0.loc = l := by
        rcases Sys.initialState_spec (s := s) h1 with ⟨h2, _⟩ | ⟨z, h2, _⟩
        · have h2 : s.initialState = _ := h2
          rw [hi] at h2; cases h2
        · have h2 : s.initialState = _ := h2
          rw [hi] at h2; cases h2; rfl
      simp only [this]
      exact hinit l rfl

/-! ## Components -/

/-- No edge of a compiled component assigns two different values to one clock. -/
def CompComp.EdgesAgree (c : CompComp F) : Prop :=
  ∀ p ∈ c.edges, ∀ e ∈ p.2, NoConflict e.2.updates

instance (c : CompComp F) : Decidable c.EdgesAgree := by
  unfold CompComp.EdgesAgree; infer_instance

theorem CompComp.EdgesAgree.next {c : CompComp F} (h : c.EdgesAgree) {l : LocTree F} {a : String}
    {trans : List (Transition F)} (hn : c.next l a = .ok trans) : ∀ t ∈ trans, NoConflict t.updates := by
  unfold CompComp.next at hn
  split at hn
  · cases hn
  split at hn
  · cases hn; intro t ht; rw [List.mem_singleton.1 ht]; intro u hu; cases hu
  split at hn
  · cases hn; intro t ht; rw [List.mem_singleton.1 ht]; intro u hu; cases hu
  split at hn
  · cases hn
  · rename_i es hes
    cases hn
    intro t ht
    obtain ⟨e, he, rfl⟩ := List.mem_map.1 ht
    have : (l.id, es) ∈ c.edges := by
      clear h ht he
      generalize c.edges = m at hes
      induction m with
      | nil => cases hes
      | cons p m ih =>
        obtain ⟨k, v⟩ := p
        rw [List.lookup_cons] at hes
        split at hes
        · rename_i hk
          cases hes
          rw [beq_iff_eq] at hk
          rw [hk]; simp
        · exact List.mem_cons_of_mem _ (ih hes)
    exact h _ this e (List.mem_filter.1 he).1

theorem CompComp.EdgesAgree.updatesAgree {c : CompComp F} (h : c.EdgesAgree) :
    (Sys.comp c).ts.UpdatesAgree := fun _ _ _ _ _ _ hn => h.next hn

/-- The check answered "deterministic". -/
def passes {α : Type} : Res (Option α) → Bool
  | .ok none => true
  | _ => false

theorem passes_eq {α : Type} : ∀ {r : Res (Option α)}, passes r = true → r = .ok none
  | .ok none, _ => rfl
  | .ok (some _), h => by cases h
  | .error _, h => by cases h

/-- Non-vacuity: the machine `A` passes the check in 10 steps, and is therefore deterministic. -/
theorem sysA_deterministic : sysA.ts.Deterministic :=
  C12_deterministic_partial sysA sysA_accepted (fun _ => ["go", "out"])
    (fun _ => ⟨by decide, fun a => by
      have h1 : sysA.ts.inputs = ["go"] := by decide +kernel
      have h2 : sysA.ts.outputs = ["out"] := by decide +kernel
      rw [h1, h2]; simp⟩)
    (CompComp.EdgesAgree.updatesAgree (by decide +kernel)) 10 (passes_eq (by decide +kernel))

theorem sysB_deterministic : sysB.ts.Deterministic :=
  C12_deterministic_partial sysB sysB_accepted (fun _ => ["go", "out"])
    (fun _ => ⟨by decide, fun a => by
      have h1 : sysB.ts.inputs = ["out"] := by decide +kernel
      have h2 : sysB.ts.outputs = ["go"] := by decide +kernel
      rw [h1, h2]; simp [or_comm]⟩)
    (CompComp.EdgesAgree.updatesAgree (by decide +kernel)) 10 (passes_eq (by decide +kernel))

/-- ... and in `A` states with positive clocks are reachable: `go` resets the clock, then three time
units pass. -/
example : ∃ l v, sysA.ts.Reach l v ∧ v 1 = 3 ∧ ¬ l.inv = none := by
  let l0 : LocTree Fed4 := .leaf (.simple "L0") none .initial
  let l1 : LocTree Fed4 := .leaf (.simple "L1") (some (constrain univ 1 0 (.LE 5))) .normal
  have hz : zeroVal ∈ den (univ : Fed4) := by rw [den_univ]; exact Sys.zeroVal_valid
  have h0 : sysA.ts.Reach l0 zeroVal := .init rfl (by intro i hi; cases hi)
  have hinv : ∀ d : ℝ, 0 ≤ d → d ≤ 5 → delay (dim Fed4) (assign zeroVal 1 0) d ∈ InvSet l1 := by
    intro d h1 h2 i hi
    cases hi
    rw [den_constrain _ _ _ _ (by decide) (by decide)]
    refine ⟨by rw [den_univ]; exact delay_valid (assign_valid Sys.zeroVal_valid (by decide) (by decide)
      (le_refl _)) h1, ?_⟩
    simp [Ineq.Sat, delay, assign, zeroVal, dim_fed4, h2]
  have h1 : sysA.ts.Reach l1 (assign zeroVal 1 0) := by
    refine .act h0 (a := "go") ⟨by decide +kernel, [⟨.simple "e0", univ, l1, [⟨1, 0⟩]⟩], rfl, _,
      List.mem_singleton.2 rfl, ⟨hz, ?_⟩, rfl, ?_⟩
    · have := hinv 0 (le_refl _) (by norm_num)
      rw [delay_zero] at this
      simpa [runUpdates] using this
    · simp [runUpdates]
  refine ⟨l1, _, .delay h1 (d := 3) ⟨by norm_num, fun d' h2 h3 => hinv d' h2 (by linarith)⟩, ?_, ?_⟩
  · simp [delay, assign, dim_fed4]
  · exact Option.some_ne_none _

/-- A component with two edges `a?` from its only location, one of them with the updates `x := 0, x := 1`. -/
def exAmbiguous : Component := ⟨"T", ⟨[], [("x", 1)]⟩, [⟨"L", none, .initial, "NORMAL"⟩],
  [⟨"e", "L", "L", .input, none, some [⟨"x", .int 0⟩, ⟨"x", .int 1⟩], "a"⟩,
   ⟨"f", "L", "L", .input, none, none, "a"⟩]⟩

theorem exAmbiguous_ok : exAmbiguous.Ok (dim Fed4) := by
  constructor
  · intro p hp; simp [exAmbiguous] at hp; subst hp; decide
  · intro e he g hg
    simp only [exAmbiguous, List.mem_cons, List.not_mem_nil, or_false] at he
    rcases he with rfl | rfl <;> cases hg
  · intro l hl g hg
    simp only [exAmbiguous, List.mem_singleton] at hl; subst hl; cases hg
  · intro e he us hus u hu v hv
    simp only [exAmbiguous, List.mem_cons, List.not_mem_nil, or_false] at he
    rcases he with rfl | rfl
    · cases hus
      simp only [List.mem_cons, List.not_mem_nil, or_false] at hu
      rcases hu with rfl | rfl <;> cases hv <;> decide
    · cases hus

/-- The full property is false: an accepted component passes the check although in its initial state two
different transitions on `a` can be taken. -/
theorem C12_violated_conflicting_updates :
    ∃ s : Sys Fed4, s.Accepted ∧ (∀ _ : Nat, s.ts.IsActions ["a"]) ∧
      checkDeterminism s.ts (fun _ => ["a"]) 10 = .ok none ∧ ¬ s.ts.Deterministic := by
  let c : CompComp Fed4 := getOk (CompComp.compile id exAmbiguous 0) (by decide +kernel)
  let l0 : LocTree Fed4 := .leaf (.simple "L") none .initial
  let e : Transition Fed4 := ⟨.simple "e", univ, l0, [⟨1, 0⟩, ⟨1, 1⟩]⟩
  let f : Transition Fed4 := ⟨.simple "f", univ, l0, []⟩
  have hz : zeroVal ∈ den (univ : Fed4) := by rw [den_univ]; exact Sys.zeroVal_valid
  refine ⟨.comp c, .comp exAmbiguous_ok (fun _ => .refl _) (getOk_eq _), ?_, ?_, ?_⟩
  · intro _
    refine ⟨by decide, fun a => ?_⟩
    have h1 : (Sys.comp c).ts.inputs = ["a"] := by decide +kernel
    have h2 : (Sys.comp c).ts.outputs = [] := by decide +kernel
    rw [h1, h2]; simp
  · exact passes_eq (by decide +kernel)
  · intro h
    have h0 : (Sys.comp c).ts.Reach l0 zeroVal := .init rfl (by intro i hi; cases hi)
    have := h l0 zeroVal h0 "a" [e, f] (by decide +kernel) rfl
    rw [List.pairwise_cons] at this
    refine this.1 f (by simp) ⟨⟨hz, ?_⟩, hz, ?_⟩ <;> (intro i hi; cases hi)

/-- The check also has negative answers: two edges on `a?` with overlapping guards. -/
example : (match checkDeterminism (Sys.comp (getOk (CompComp.compile (F := Fed4) id
      ⟨"T", ⟨[], [("x", 1)]⟩, [⟨"L", none, .initial, "NORMAL"⟩],
        [⟨"e", "L", "L", .input, some (.le (.var "x") (.int 3)), none, "a"⟩,
         ⟨"f", "L", "L", .input, some (.ge (.var "x") (.int 3)), none, "a"⟩]⟩ 0) (by decide +kernel))).ts
      (fun _ => ["a"]) 10 with
    | .ok (some f) => f.action == "a"
    | _ => false) = true := by decide +kernel

end Reveaal
