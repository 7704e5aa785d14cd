import Verif.Spec.Termination
import Verif.Lemmas.Terminate
import Verif.Props.C19
import Verif.ZoneImpl
import Verif.Examples

/-! # C59: every query is answered: the searches end -/

namespace Reveaal
open ZoneLib
variable {F : Type} [ZoneLib F]

theorem Decided.terminates {α : Type} {f : Nat → Res α} (h : Decided f) : Terminates f :=
  let ⟨N, a, h⟩ := h
  ⟨N, .ok a, by simp, h⟩

theorem Terminates.const {α : Type} {x : Res α} (h : NotCut x) : Terminates fun _ => x := ⟨0, x, h, fun _ _ => rfl⟩

theorem Terminates.bind' {α β : Type} {f : Nat → Res α} {g : α → Nat → Res β} (hf : Terminates f)
    (hg : ∀ a N, (∀ n, N ≤ n → f n = .ok a) → Terminates (g a)) : Terminates fun n => f n >>= fun a => g a n := by
  obtain ⟨N, r, hr, h⟩ := hf
  cases r with
  | error e =>
    refine ⟨N, .error e, fun he => hr (by cases he; rfl), fun n hn => ?_⟩
    dsimp only
    rw [h n hn]; rfl
  | ok a =>
    obtain ⟨M, r', hr', h'⟩ := hg a N h
    refine ⟨max N M, r', hr', fun n hn => ?_⟩
    dsimp only
    rw [h n (by omega)]
    exact h' n (by omega)

theorem Terminates.bind {α β : Type} {f : Nat → Res α} {g : α → Nat → Res β} (hf : Terminates f)
    (hg : ∀ a n, f n = .ok a → Terminates (g a)) : Terminates fun n => f n >>= fun a => g a n :=
  hf.bind' fun a N h => hg a N (h N le_rfl)

theorem Decided.bind {α β : Type} {f : Nat → Res α} {g : α → Nat → Res β} (hf : Decided f)
    (hg : ∀ a n, f n = .ok a → Decided (g a)) : Decided fun n => f n >>= fun a => g a n := by
  obtain ⟨N, a, h⟩ := hf
  obtain ⟨M, b, h'⟩ := hg a N (h N le_rfl)
  refine ⟨max N M, b, fun n hn => ?_⟩
  dsimp only
  rw [h n (by omega)]
  exact h' n (by omega)

theorem Decided.ok {α : Type} (a : α) : Decided fun _ => (.ok a : Res α) := ⟨0, a, fun _ _ => rfl⟩

/-! ## The checks of one system -/

theorem Sys.FairOrders.acts {c : CompComp F} {ord : List Bool → Orders} (h : (Sys.comp c).FairOrders ord) :
    ∀ k, ∀ a ∈ (ord []).acts k, a ∈ (Sys.comp c).ts.inputs ∨ a ∈ (Sys.comp c).ts.outputs :=
  fun k a ha => ((h k).1.2 a).1 ha

/-- **C59** The determinism check of every accepted system ends with an answer. -/
theorem C59_determinism (hfin : FiniteExtrapolation F) {s : Sys F} (hs : s.Accepted) :
    ∀ (ord : List Bool → Orders), s.FairOrders ord → Decided fun n => s.checkDet ord n := by
  induction hs with
  | comp hc ho hx =>
    intro ord h
    exact Sys.checkDeterminism_ends (Sys.Accepted.comp hc ho hx).good hfin h.acts
  | composition hl hr hs ihl ihr =>
    intro ord h
    obtain ⟨_, rfl⟩ := Sys.newComposition_eq hs
    refine (ihl _ h.1).bind fun o _ _ => ?_
    cases o with
    | some f => exact .ok _
    | none => exact ihr _ h.2
  | conjunction hl hr hs ihl ihr =>
    intro ord h
    obtain ⟨_, _, rfl⟩ := Sys.newConjunction_eq hs
    refine (ihl _ h.1).bind fun o _ _ => ?_
    cases o with
    | some f => exact .ok _
    | none => exact ihr _ h.2
  | quotient hl hr h0 hn hs ihl ihr =>
    intro ord h
    obtain ⟨_, rfl⟩ := Sys.newQuotient_eq hs
    refine (ihl _ h.1).bind fun o _ _ => ?_
    cases o with
    | some f => exact .ok _
    | none => exact ihr _ h.2

/-- **C59** So does the local consistency check. -/
theorem C59_local_consistency (hfin : FiniteExtrapolation F) {s : Sys F} (hs : s.Accepted) :
    ∀ (ord : List Bool → Orders), s.FairOrders ord → Decided fun n => s.checkCons ord n := by
  induction hs with
  | comp hc ho hx =>
    intro ord h
    exact Sys.isLeastConsistent_ends (Sys.Accepted.comp hc ho hx).good hfin
      (fun k a ha => .inl ((h k).2.1.mem_iff.1 ha)) (fun k a ha => .inr ((h k).2.2.mem_iff.1 ha))
  | composition hl hr hs ihl ihr =>
    intro ord h
    obtain ⟨_, rfl⟩ := Sys.newComposition_eq hs
    refine (ihl _ h.1).bind fun o _ _ => ?_
    cases o with
    | some f => exact .ok _
    | none => exact ihr _ h.2
  | conjunction hl hr hs ihl ihr =>
    intro ord h
    obtain ⟨_, _, rfl⟩ := Sys.newConjunction_eq hs
    refine (ihl _ h.1).bind fun o _ _ => ?_
    cases o with
    | some f => exact .ok _
    | none => exact ihr _ h.2
  | quotient hl hr h0 hn hs ihl ihr =>
    intro ord h
    obtain ⟨_, rfl⟩ := Sys.newQuotient_eq hs
    refine (ihr _ h.2).bind fun o _ _ => ?_
    cases o with
    | some f => exact .ok _
    | none => exact ihl _ h.1

/-- **C59** The consistency query of every accepted system ends with an answer, and with the same one however many
steps are allowed beyond those needed. -/
theorem C59_consistency (hfin : FiniteExtrapolation F) {s : Sys F} (hs : s.Accepted) (ord : List Bool → Orders)
    (h : s.FairOrders ord) : Decided fun n => s.precheck ord n := by
  refine (C59_determinism hfin hs ord h).bind fun o _ _ => ?_
  cases o with
  | some f => exact .ok _
  | none => exact C59_local_consistency hfin hs ord h

/-- **C59** The refinement query of every two accepted systems ends with an answer. -/
theorem C59_refinement (hfin : FiniteExtrapolation F) {s t : Sys F} (hs : s.Accepted) (ht : t.Accepted)
    (ord1 ord2 : List Bool → Orders) (h1 : s.FairOrders ord1) (h2 : t.FairOrders ord2) (ordO ordI : List String)
    (hO : ∀ a ∈ ordO, a ∈ s.ts.outputs) (hI : ∀ a ∈ ordI, a ∈ t.ts.inputs) :
    Decided fun n => checkRefinement s t ord1 ord2 ordO ordI n := by
  refine (C59_consistency hfin hs ord1 h1).bind fun o _ _ => ?_
  cases o with
  | some f => exact .ok _
  | none =>
    refine (C59_consistency hfin ht ord2 h2).bind fun o _ _ => ?_
    cases o with
    | some f => exact .ok _
    | none =>
      dsimp only
      cases Refine.checkAlphabets s.ts t.ts with
      | some f => exact .ok _
      | none => exact explore_ends hs.good ht.good hfin hO hI

/-- **C59** The search of a reachability query ends, whatever the start and the goal are.  (It may end in a crash: the
path that is found is followed again without extrapolation, `C14`.) -/
theorem C59_reachability (hfin : FiniteExtrapolation F) {s : Sys F} (hs : s.Accepted) (zoneBounds : F → Bounds)
    (start goal : State F) (hstart : s.IsLoc start.loc) :
    Terminates fun n => findPath zoneBounds s.ts start goal n := by
  suffices h : ∃ N, NotCut (findPath zoneBounds s.ts start goal N) by
    obtain ⟨N, h⟩ := h
    exact ⟨N, _, h, fun n hn => settled (findPath_mono zoneBounds s.ts start goal) h n hn⟩
  by_cases hu : triviallyUnreachable start goal = true
  · exact ⟨0, by unfold findPath; rw [if_pos hu]; exact .ok _⟩
  · obtain ⟨β, hT⟩ := hs.good.tame
    let A : Set (LocTree F × Set Val) := Keys F {l | s.IsLoc l} fun l => (β l).add (zoneBounds goal.zone)
    let st : Search F := ⟨[⟨[], start.applyInvariants⟩], [(start.applyInvariants.loc.id, [start.applyInvariants.zone])]⟩
    refine ⟨st.left A + 1, ?_⟩
    unfold findPath
    rw [if_neg hu]
    exact searchLoop_ends hT (zoneBounds goal.zone) subset_rfl (Keys.finite hfin hT.finite _)
      (by intro a ha; exact Sys.hasAction_iff.1 (show s.hasAction a = true from mem_sortedActions.1 ha)) _ goal (st.left A) st
      (by intro n hn; rw [List.mem_singleton] at hn; subst hn; exact hstart) le_rfl

/-! ## The steps do not matter -/

/-- **C59** An answer of the consistency check does not depend on the number of steps it was given. -/
theorem C59_steps_consistency (s : Sys F) (ord : List Bool → Orders) {n m : Nat} {x y : Option (ConsFailure F)}
    (hx : s.precheck ord n = .ok x) (hy : s.precheck ord m = .ok y) : x = y := by
  rcases le_total n m with h | h
  · have := settled (s.precheck_mono ord) (N := n) (by rw [hx]; simp) m h
    rw [hx, hy] at this; cases this; rfl
  · have := settled (s.precheck_mono ord) (N := m) (by rw [hy]; simp) n h
    rw [hx, hy] at this; cases this; rfl

/-- **C59** Nor does that of the refinement check. -/
theorem C59_steps_refinement (s t : Sys F) (ord1 ord2 : List Bool → Orders) (ordO ordI : List String) {n m : Nat}
    {x y : Option (RefFailure F)} (hx : checkRefinement s t ord1 ord2 ordO ordI n = .ok x)
    (hy : checkRefinement s t ord1 ord2 ordO ordI m = .ok y) : x = y := by
  rcases le_total n m with h | h
  · have := settled (checkRefinement_mono s t ord1 ord2 ordO ordI) (N := n) (by rw [hx]; simp) m h
    rw [hx, hy] at this; cases this; rfl
  · have := settled (checkRefinement_mono s t ord1 ord2 ordO ordI) (N := m) (by rw [hy]; simp) n h
    rw [hx, hy] at this; cases this; rfl

/-- **C59** Nor does the path that is found. -/
theorem C59_steps_reachability (zoneBounds : F → Bounds) (s : Sys F) (start goal : State F) {n m : Nat}
    {x y : Option (List (Decision F))} (hx : findPath zoneBounds s.ts start goal n = .ok x)
    (hy : findPath zoneBounds s.ts start goal m = .ok y) : x = y := by
  rcases le_total n m with h | h
  · have := settled (findPath_mono zoneBounds s.ts start goal) (N := n) (by rw [hx]; simp) m h
    rw [hx, hy] at this; cases this; rfl
  · have := settled (findPath_mono zoneBounds s.ts start goal) (N := m) (by rw [hy]; simp) n h
    rw [hx, hy] at this; cases this; rfl

/-! ## The analysis of clocks -/

section Analysis
variable {ts : TS F} {S : Set (LocTree F)} {β : LocTree F → Bounds}

/-- The identifiers that have a node. -/
def ClockGraph.Seen (g : ClockGraph) (l : LocTree F) : Prop := l.id.uniqueString ∈ g.nodes.map (·.1)

theorem visitTransitions_new {l : LocTree F} {a : String} : ∀ (tl : List (Transition F)) (x : List (LocTree F) × ClockGraph),
    (∀ t ∈ tl, t.target ∈ S) → ∃ new, (tl.foldl (visitTransition l a) x).1 = x.1 ++ new ∧
      (tl.foldl (visitTransition l a) x).2.nodes = x.2.nodes ∧ ∀ y ∈ new, y ∈ S ∧ ¬ x.2.Seen y
  | [], x, _ => ⟨[], by simp, rfl, by simp⟩
  | t :: tl, x, ht => by
    rw [List.foldl_cons]
    obtain ⟨new, h1, h2, h3⟩ := visitTransitions_new (l := l) (a := a) tl (visitTransition l a x t)
      (fun t h => ht t (.tail _ h))
    have hn : (visitTransition l a x t).2.nodes = x.2.nodes := by unfold visitTransition; dsimp only; split <;> rfl
    have hk : ∀ y : LocTree F, (visitTransition l a x t).2.Seen y ↔ x.2.Seen y := fun y => by unfold ClockGraph.Seen; rw [hn]
    by_cases hc : x.2.Seen t.target
    · refine ⟨new, ?_, h2.trans hn, fun y hy => ⟨(h3 y hy).1, fun h => (h3 y hy).2 ((hk y).2 h)⟩⟩
      rw [h1]
      congr 1
      unfold visitTransition; dsimp only
      rw [if_pos (by simpa [ClockGraph.Seen] using hc)]
    · refine ⟨t.target :: new, ?_, h2.trans hn, ?_⟩
      · rw [h1]
        have : (visitTransition l a x t).1 = x.1 ++ [t.target] := by
          unfold visitTransition; dsimp only
          rw [if_neg (by simpa [ClockGraph.Seen] using hc)]
        rw [this]; simp
      · intro y hy
        rcases List.mem_cons.1 hy with rfl | hy
        · exact ⟨ht t (.head _), hc⟩
        · exact ⟨(h3 y hy).1, fun h => (h3 y hy).2 ((hk y).2 h)⟩

theorem visitActions_new (hT : ts.Tame S β) {l : LocTree F} (hl : l ∈ S) : ∀ (acts : List String)
    (x : List (LocTree F) × ClockGraph), ∃ new g, acts.foldlM (visitAction ts l) x = .ok (x.1 ++ new, g) ∧
      g.nodes = x.2.nodes ∧ ∀ y ∈ new, y ∈ S ∧ ¬ x.2.Seen y
  | [], x => ⟨[], x.2, by simp; rfl, rfl, by simp⟩
  | a :: acts, x => by
    have hn : ∃ tr, ts.nextIfAvailable l a = .ok tr ∧ ∀ t ∈ tr, t.target ∈ S := by
      unfold TS.nextIfAvailable
      split
      · rename_i h
        exact hT.next l hl a (by simpa [TS.hasAction] using h)
      · exact ⟨[], rfl, by simp⟩
    obtain ⟨tr, h1, h2⟩ := hn
    obtain ⟨new, e1, e2, e3⟩ := visitTransitions_new (l := l) (a := a) tr x h2
    obtain ⟨new', g, f1, f2, f3⟩ := visitActions_new hT hl acts (tr.foldl (visitTransition l a) x)
    refine ⟨new ++ new', g, ?_, f2.trans e2, ?_⟩
    · rw [List.foldlM_cons]
      unfold visitAction
      rw [h1, ok_bind, ok_bind]
      have := f1
      unfold visitAction at this
      rw [this, e1, List.append_assoc]
    · intro y hy
      rcases List.mem_append.1 hy with hy | hy
      · exact e3 y hy
      · exact ⟨(f3 y hy).1, fun h => (f3 y hy).2 (by unfold ClockGraph.Seen; rw [e2]; exact h)⟩

theorem findEdges_mono (ts : TS F) (acts : List String) : ∀ (n : Nat) (wl : List (LocTree F)) (g : ClockGraph),
    Below (findEdgesAndNodes ts acts n wl g) (findEdgesAndNodes ts acts (n + 1) wl g)
  | n, [], g => by cases n <;> exact .refl _
  | 0, _ :: _, _ => .cut _
  | n + 1, l :: wl, g => by
    rw [findEdgesAndNodes, findEdgesAndNodes]
    exact (Below.refl _).bind fun x => findEdges_mono ts acts n _ _

theorem findEdges_ends (hT : ts.Tame S β) (acts : List String) : ∀ (u v : Nat) (wl : List (LocTree F)) (g : ClockGraph),
    (∀ l ∈ wl, l ∈ S) → (S \ {l | g.Seen l}).ncard ≤ u →
    (∃ known rest : List (LocTree F), wl.Perm (known ++ rest) ∧ known.length ≤ v ∧ ∀ l ∈ rest, ¬ g.Seen l) →
    ∃ n g', findEdgesAndNodes ts acts n wl g = .ok g' := by
  intro u
  induction u using Nat.strong_induction_on with
  | _ u ihu =>
  intro v
  induction v with
  | zero =>
    intro wl g hwl hu hv
    cases wl with
    | nil => exact ⟨0, g, rfl⟩
    | cons l wl =>
      obtain ⟨known, rest, hp, hk, hr⟩ := hv
      have : known = [] := List.eq_nil_of_length_eq_zero (by omega)
      subst this
      have hnk : ¬ g.Seen l := hr l (hp.mem_iff.1 (.head _))
      let g1 : ClockGraph := { g with nodes := hmInsert l.id.uniqueString (ClockNode.ofLoc l) g.nodes }
      obtain ⟨new, g2, e1, e2, e3⟩ := visitActions_new hT (hwl l (.head _)) acts (wl, g1)
      have hkn : ∀ y : LocTree F, g2.Seen y ↔ g.Seen y ∨ y.id.uniqueString = l.id.uniqueString := by
        intro y
        unfold ClockGraph.Seen
        rw [e2]
        exact hmInsert_keys.trans or_comm
      have hlt : (S \ {l | g2.Seen l}).ncard < (S \ {l | g.Seen l}).ncard :=
        remain_lt hT.finite (fun k _ h => (hkn k).2 (.inl h)) (hwl l (.head _)) hnk ((hkn l).2 (.inr rfl))
      obtain ⟨n, g', h⟩ := ihu _ (by omega) (wl ++ new).length (wl ++ new) g2
        (fun y hy => (List.mem_append.1 hy).elim (fun h => hwl y (.tail _ h)) fun h => (e3 y h).1) le_rfl
        ⟨wl ++ new, [], by simp, le_rfl, by simp⟩
      refine ⟨n + 1, g', ?_⟩
      rw [findEdgesAndNodes]
      dsimp only
      rw [e1, ok_bind]
      exact h
  | succ v ihv =>
    intro wl g hwl hu hv
    cases wl with
    | nil => exact ⟨0, g, rfl⟩
    | cons l wl =>
      obtain ⟨known, rest, hp, hk, hr⟩ := hv
      let g1 : ClockGraph := { g with nodes := hmInsert l.id.uniqueString (ClockNode.ofLoc l) g.nodes }
      obtain ⟨new, g2, e1, e2, e3⟩ := visitActions_new hT (hwl l (.head _)) acts (wl, g1)
      have hkn : ∀ y : LocTree F, g2.Seen y ↔ g.Seen y ∨ y.id.uniqueString = l.id.uniqueString := by
        intro y
        unfold ClockGraph.Seen
        rw [e2]
        exact hmInsert_keys.trans or_comm
      by_cases hnk : g.Seen l
      · have hkn' : ∀ y : LocTree F, g2.Seen y ↔ g.Seen y := fun y =>
          ⟨fun h => ((hkn y).1 h).elim id fun h => by unfold ClockGraph.Seen at hnk ⊢; rw [h]; exact hnk,
            fun h => (hkn y).2 (.inl h)⟩
        have hlk : l ∈ known := by
          rcases List.mem_append.1 (hp.mem_iff.1 (.head _)) with h | h
          · exact h
          · exact absurd hnk (hr l h)
        obtain ⟨a, b, hab⟩ := List.append_of_mem hlk
        have hp' : wl.Perm (a ++ b ++ rest) := by
          have : (l :: wl).Perm (l :: (a ++ b ++ rest)) := by
            refine hp.trans ?_
            rw [hab]
            simp
          exact this.cons_inv
        obtain ⟨n, g', h⟩ := ihv (wl ++ new) g2
          (fun y hy => (List.mem_append.1 hy).elim (fun h => hwl y (.tail _ h)) fun h => (e3 y h).1)
          (le_of_eq_of_le (by congr 1; ext y; simp [hkn']) hu)
          ⟨a ++ b, rest ++ new, by rw [← List.append_assoc]; exact hp'.append_right _,
            by rw [hab] at hk; simp at hk ⊢; omega, by
              intro y hy
              rw [hkn']
              rcases List.mem_append.1 hy with hy | hy
              · exact hr y hy
              · intro h
                refine (e3 y hy).2 ?_
                have := (hkn' y).2 h
                unfold ClockGraph.Seen at this ⊢
                rw [e2] at this; exact this⟩
        refine ⟨n + 1, g', ?_⟩
        rw [findEdgesAndNodes]
        dsimp only
        rw [e1, ok_bind]
        exact h
      · have hlt : (S \ {l | g2.Seen l}).ncard < (S \ {l | g.Seen l}).ncard :=
          remain_lt hT.finite (fun k _ h => (hkn k).2 (.inl h)) (hwl l (.head _)) hnk ((hkn l).2 (.inr rfl))
        obtain ⟨n, g', h⟩ := ihu _ (by omega) (wl ++ new).length (wl ++ new) g2
          (fun y hy => (List.mem_append.1 hy).elim (fun h => hwl y (.tail _ h)) fun h => (e3 y h).1) le_rfl
          ⟨wl ++ new, [], by simp, le_rfl, by simp⟩
        refine ⟨n + 1, g', ?_⟩
        rw [findEdgesAndNodes]
        dsimp only
        rw [e1, ok_bind]
        exact h

end Analysis

/-- **C59** The search for redundant clocks ends with an answer for every accepted system that has an initial
location, although the search looks at locations again and again.  No assumption on the zones is needed. -/
theorem C59_clock_analysis {s : Sys F} (hs : s.Accepted) {l : LocTree F} (hl : s.initialLoc = .ok (some l))
    (ord : HashOrder) (acts : List String) : Decided fun n => findRedundantClocks ord s.ts acts n := by
  obtain ⟨β, hT⟩ := hs.good.tame
  have hloc : s.IsLoc l := by
    obtain ⟨o, ho, h⟩ := hs.good.initial
    rw [hl] at ho; cases ho
    exact h l rfl
  obtain ⟨n, g, h⟩ := findEdges_ends hT acts _ 1 [l] ⟨[], []⟩ (by simpa using hloc) le_rfl
    ⟨[l], [], by simp, le_rfl, by simp⟩
  refine ⟨n, g.redundancies ord (dim F), fun m hm => ?_⟩
  have := settled (fun n => findEdges_mono s.ts acts n [l] ⟨[], []⟩) (N := n) (by rw [h]; simp) m hm
  unfold findRedundantClocks analysisGraph
  dsimp only
  rw [show s.ts.initialLoc = .ok (some l) from hl, ok_bind]
  dsimp only
  rw [this, h]
  rfl

/-! ## Building the systems -/

/-- The same iteration orders with another number of steps. -/
def CompileEnv.withFuel (env : CompileEnv F) (n : Nat) : CompileEnv F := { env with fuel := n }

/-- The iteration orders used when a recipe is compiled go over the right sets: at a conjunction the inputs and
outputs of the conjunction, at a quotient those of the operands. -/
def Recipe.FairEnv : Recipe → CompileEnv F → Prop
  | .component _ _, _ => True
  | .composition l r, env => l.FairEnv (env.sub false) ∧ r.FairEnv (env.sub true)
  | .conjunction l r, env => l.FairEnv (env.sub false) ∧ r.FairEnv (env.sub true) ∧
      ∀ n i j k sl sr s, l.compile ((env.sub false).withFuel n) i = .ok (sl, j) →
        r.compile ((env.sub true).withFuel n) j = .ok (sr, k) → Sys.newConjunctionUnchecked sl sr = .ok s →
        ∀ m, ((env.checks []).inputs m).Perm s.ts.inputs ∧ ((env.checks []).outputs m).Perm s.ts.outputs
  | .quotient l r _, env => l.FairEnv (env.sub false) ∧ r.FairEnv (env.sub true) ∧
      ∀ n i j k sl sr, l.compile ((env.sub false).withFuel n) i = .ok (sl, j) →
        r.compile ((env.sub true).withFuel n) j = .ok (sr, k) →
        sl.FairOrders (fun p => env.checks (false :: p)) ∧ sr.FairOrders (fun p => env.checks (true :: p))

/-- **C59** Every recipe is compiled, or refused, in finitely many steps, although conjunctions and quotients check
their operands with searches. -/
theorem C59_compile (hfin : FiniteExtrapolation F) : ∀ (r : Recipe) (env : CompileEnv F) (i : Nat), env.Perm →
    r.Ok (dim F) → r.FairEnv env → Terminates fun n => r.compile (env.withFuel n) i
  | .component c x, env, i, _, _, _ => .const ((compile_notCut _ _ _).bind fun _ => .ok _)
  | .composition l r, env, i, he, ho, hf => by
    obtain ⟨hl, hr⟩ := Recipe.Ok.split (p := l.quotientClocks) (q := r.quotientClocks) ho
    refine (C59_compile hfin l (env.sub false) i he hl hf.1).bind fun x n hx => ?_
    refine (C59_compile hfin r (env.sub true) x.2 he hr hf.2).bind fun y m hy => ?_
    exact .const ((newComposition_notCut _ _).bind fun _ => .ok _)
  | .conjunction l r, env, i, he, ho, hf => by
    obtain ⟨hl, hr⟩ := Recipe.Ok.split (p := l.quotientClocks) (q := r.quotientClocks) ho
    refine (C59_compile hfin l (env.sub false) i he hl hf.1).bind' fun x N hN => ?_
    refine (C59_compile hfin r (env.sub true) x.2 he hr hf.2.1).bind' fun y M hM => ?_
    refine Terminates.bind (f := fun n => Sys.newConjunction (env.checks []) n x.1 y.1) ?_ fun z _ _ => .const (.ok _)
    refine (Terminates.const (newConjunctionUnchecked_notCut _ _)).bind fun s k hs => ?_
    have hF := hf.2.2 (max N M) i x.2 y.2 x.1 y.1 s (hN _ (le_max_left _ _)) (hM _ (le_max_right _ _)) hs
    refine Terminates.bind (Decided.terminates ?_) fun o _ _ => .const ?_
    · have hacc := Sys.Accepted.conjunction (Recipe.compile_accepted (env := (env.sub false).withFuel N) he hl (hN N le_rfl))
        (Recipe.compile_accepted (env := (env.sub true).withFuel M) he hr (hM M le_rfl)) hs
      exact Sys.isLeastConsistent_ends hacc.good hfin (fun k a ha => .inl ((hF k).1.mem_iff.1 ha))
        (fun k a ha => .inr ((hF k).2.mem_iff.1 ha))
    · cases o with
      | some _ => exact .err _
      | none => exact .ok _
  | .quotient l r q, env, i, he, ho, hf => by
    obtain ⟨hl, hr, h0, hn⟩ := Recipe.Ok.quotient ho
    refine (C59_compile hfin l (env.sub false) i he hl hf.1).bind' fun x N hN => ?_
    refine (C59_compile hfin r (env.sub true) x.2 he hr hf.2.1).bind' fun y M hM => ?_
    refine Terminates.bind (f := fun n => Sys.newQuotient env.checks n x.1 y.1 q) ?_ fun z _ _ => .const (.ok _)
    refine (Terminates.const (newQuotientUnchecked_notCut _ _ _)).bind fun s k hs => ?_
    have hF := hf.2.2 (max N M) i x.2 y.2 x.1 y.1 (hN _ (le_max_left _ _)) (hM _ (le_max_right _ _))
    refine Terminates.bind (C59_consistency hfin (Recipe.compile_accepted (env := (env.sub false).withFuel N) he hl (hN N le_rfl)) _ hF.1).terminates
      fun o _ _ => ?_
    cases o with
    | some _ => exact .const (.err _)
    | none =>
      refine Terminates.bind (C59_consistency hfin (Recipe.compile_accepted (env := (env.sub true).withFuel M) he hr (hM M le_rfl)) _ hF.2).terminates
        fun o _ _ => .const ?_
      cases o with
      | some _ => exact .err _
      | none => exact .ok _

theorem foldlM_notCut {α β : Type} {f : β → α → Res β} (hf : ∀ b a, NotCut (f b a)) : ∀ (l : List α) (b : β),
    NotCut (l.foldlM f b)
  | [], b => by rw [List.foldlM_nil]; exact .ok _
  | a :: l, b => by rw [List.foldlM_cons]; exact (hf b a).bind fun b => foldlM_notCut hf l b

theorem removeClock_notCut (c : Component) (i : Nat) : NotCut (c.removeClock i) := by
  unfold Component.removeClock; notcut

theorem modifyFirst_notCut {p : Component → Bool} {f : Component → Res Component} (hf : ∀ c, NotCut (f c)) :
    ∀ r : Recipe, NotCut (r.modifyFirst p f)
  | .composition l r => by
    have h1 := modifyFirst_notCut (p := p) hf l
    have h2 := modifyFirst_notCut (p := p) hf r
    unfold Recipe.modifyFirst; notcut
  | .conjunction l r => by
    have h1 := modifyFirst_notCut (p := p) hf l
    have h2 := modifyFirst_notCut (p := p) hf r
    unfold Recipe.modifyFirst; notcut
  | .quotient l r q => by
    have h1 := modifyFirst_notCut (p := p) hf l
    have h2 := modifyFirst_notCut (p := p) hf r
    unfold Recipe.modifyFirst; notcut
  | .component c i => by
    unfold Recipe.modifyFirst
    split
    · exact (hf c).bind fun _ => .ok _
    · exact .ok _

theorem reduceClocks_notCut (r : Recipe) (ins : List ClockInstr) : NotCut (r.reduceClocks ins) := by
  refine foldlM_notCut (fun r i => ?_) _ _
  cases i with
  | remove i =>
    have := modifyFirst_notCut (p := fun c => c.decls.clocks.any fun p => p.2 = i)
      (fun c => removeClock_notCut c i) r
    simp only [Recipe.reduceClock]; notcut
  | replace i cs => exact .ok _

theorem subDim_notCut (d n : Nat) : NotCut (subDim d n) := by unfold subDim; notcut

theorem analysis_terminates {s : Sys F} (hs : s.Accepted) (ord : HashOrder) (acts : List String) :
    Terminates fun n => findRedundantClocks ord s.ts acts n := by
  obtain ⟨o, ho, _⟩ := hs.good.initial
  cases o with
  | some l => exact (C59_clock_analysis hs ho ord acts).terminates
  | none =>
    refine ⟨0, .error (.panic "called `Option::unwrap()` on a `None` value"), by simp, fun n _ => ?_⟩
    dsimp only
    unfold findRedundantClocks analysisGraph
    rw [show s.ts.initialLoc = .ok none from ho]
    rfl

/-- **C59** Clock reduction ends: for the one recipe of a consistency query and for the two of a refinement query. -/
theorem C59_clock_reduction (hfin : FiniteExtrapolation F) (env env' : CompileEnv F) (ord ord' : HashOrder)
    (acts : Sys F → List String) (l : Recipe) (r : Option Recipe) (d : Nat) (q : Option Nat) (he : env.Perm)
    (he' : env'.Perm) (hl : l.Ok (dim F)) (hr : ∀ x, r = some x → x.Ok (dim F)) (hfl : l.FairEnv env)
    (hfr : ∀ x, r = some x → x.FairEnv env') :
    Terminates fun n => clockReduce (env.withFuel n) (env'.withFuel n) ord ord' acts l r d q := by
  unfold clockReduce
  by_cases hd : d = 0
  · simp only [hd, if_true]; exact .const (.ok _)
  · simp only [hd, if_false]
    cases r with
    | none =>
      dsimp only
      refine Terminates.bind (f := fun n => clockReduceSingle (env.withFuel n) ord acts l d q) ?_ fun _ _ _ =>
        .const (.ok _)
      refine (C59_compile hfin l env 0 he hl hfl).bind fun x n hx => ?_
      refine (analysis_terminates (Recipe.compile_accepted (env := env.withFuel n) he hl hx) ord (acts x.1)).bind
        fun cl _ _ => ?_
      exact .const ((subDim_notCut _ _).bind fun _ => (reduceClocks_notCut _ _).bind fun _ => .ok _)
    | some r =>
      dsimp only
      refine Terminates.bind (f := fun n => clockReduceTwo (env.withFuel n) (env'.withFuel n) ord ord' acts l r d q) ?_
        fun _ _ _ => .const (.ok _)
      refine (C59_compile hfin l env 0 he hl hfl).bind fun x n hx => ?_
      refine (analysis_terminates (Recipe.compile_accepted (env := env.withFuel n) he hl hx) ord (acts x.1)).bind
        fun cl _ _ => ?_
      refine (C59_compile hfin r env' 0 he' (hr r rfl) (hfr r rfl)).bind fun y m hy => ?_
      refine (analysis_terminates (Recipe.compile_accepted (env := env'.withFuel m) he' (hr r rfl) hy) ord'
        (acts y.1)).bind fun cr _ _ => ?_
      refine .const ((subDim_notCut _ _).bind fun _ => (reduceClocks_notCut _ _).bind fun _ =>
        (reduceClocks_notCut _ _).bind fun _ => ?_)
      notcut

/-! ## A case that meets the hypotheses -/

/-- Zones over three clocks whose extrapolation has finitely many results. -/
def FinFed : Type := Fed4
@[reducible] def finFedBase : ZoneLib FinFed := ZoneImpl.lib 3
instance finFedLib : ZoneLib FinFed := closureLib finFedBase

theorem finFed_finite : FiniteExtrapolation FinFed := closureLib_finite finFedBase

def finA : Sys FinFed := .comp (getOk (CompComp.compile id exA 0) (by decide +kernel))
def finB : Sys FinFed := .comp (getOk (CompComp.compile id exB 1) (by decide +kernel))
def finC : Sys FinFed := .comp (getOk (CompComp.compile id exC 2) (by decide +kernel))

theorem finA_accepted : finA.Accepted := .comp (Component.ok_of_okB (by decide)) (fun _ => .refl _) (getOk_eq _)
theorem finC_accepted : finC.Accepted := .comp (Component.ok_of_okB (by decide)) (fun _ => .refl _) (getOk_eq _)

def finOrders (ins outs : List String) : List Bool → Orders :=
  fun _ => ⟨fun _ => ins ++ outs, fun _ => ins, fun _ => outs⟩

theorem finA_fair : finA.FairOrders (finOrders ["go"] ["out"]) := by
  have h1 : finA.ts.inputs = ["go"] := by decide +kernel
  have h2 : finA.ts.outputs = ["out"] := by decide +kernel
  intro k
  refine ⟨⟨by simp [finOrders], fun a => ?_⟩, ?_, ?_⟩
  · change _ ↔ a ∈ finA.ts.inputs ∨ a ∈ finA.ts.outputs
    rw [h1, h2]; simp [finOrders]
  · change List.Perm _ finA.ts.inputs
    rw [h1]; exact .refl _
  · change List.Perm _ finA.ts.outputs
    rw [h2]; exact .refl _

theorem finC_fair : finC.FairOrders (finOrders ["go"] ["out"]) := by
  have h1 : finC.ts.inputs = ["go"] := by decide +kernel
  have h2 : finC.ts.outputs = ["out"] := by decide +kernel
  intro k
  refine ⟨⟨by simp [finOrders], fun a => ?_⟩, ?_, ?_⟩
  · change _ ↔ a ∈ finC.ts.inputs ∨ a ∈ finC.ts.outputs
    rw [h1, h2]; simp [finOrders]
  · change List.Perm _ finC.ts.inputs
    rw [h1]; exact .refl _
  · change List.Perm _ finC.ts.outputs
    rw [h2]; exact .refl _

/-- The consistency query of the machine is answered, and so is whether the second machine refines the first. -/
example : (Decided fun n => finA.precheck (finOrders ["go"] ["out"]) n) ∧
    Decided fun n => checkRefinement finC finA (finOrders ["go"] ["out"]) (finOrders ["go"] ["out"]) ["out"] ["go"] n :=
  ⟨C59_consistency finFed_finite finA_accepted _ finA_fair,
   C59_refinement finFed_finite finC_accepted finA_accepted _ _ finC_fair finA_fair _ _
    (by decide +kernel) (by decide +kernel)⟩

/-- With enough steps the answers are these: consistent; refines. -/
example : (match finA.precheck (finOrders ["go"] ["out"]) 20 with | .ok none => true | _ => false) = true ∧
    (match checkRefinement finC finA (finOrders ["go"] ["out"]) (finOrders ["go"] ["out"]) ["out"] ["go"] 20 with
      | .ok none => true | _ => false) = true := by
  constructor <;> decide +kernel

/-- Too few steps are not enough: the search is a real one. -/
example : (match finA.precheck (finOrders ["go"] ["out"]) 1 with | .error .fuel => true | _ => false) = true := by
  decide +kernel

/-- Whether a state is reachable in the machine is found out, whatever the bounds, the zone and the goal. -/
example (zb : FinFed → Bounds) (z : FinFed) (goal : State FinFed) :
    Terminates fun n => findPath zb finA.ts ⟨.leaf (.simple "L0") none .initial, z⟩ goal n := by
  obtain ⟨o, ho, h⟩ := finA_accepted.good.initial
  refine C59_reachability finFed_finite finA_accepted zb _ goal (h _ ?_)
  have : finA.initialLoc = .ok (some (.leaf (.simple "L0") none .initial)) := rfl
  rw [this] at ho; cases ho; rfl

/-- The analysis of the clocks of the machine ends. -/
example (ord : HashOrder) : Decided fun n => findRedundantClocks ord finA.ts ["go", "out"] n :=
  C59_clock_analysis finA_accepted (l := .leaf (.simple "L0") none .initial) rfl ord _

theorem compile_actions {order : List (LocId × LocTree F) → List (LocId × LocTree F)} {c : Component} {i : Nat}
    {x : CompComp F} (h : CompComp.compile order c i = .ok x) :
    x.inputs = c.specificActions .input ∧ x.outputs = c.specificActions .output := by
  unfold CompComp.compile CompComp.compileWith at h
  split at h
  · cases h
  · obtain ⟨_, _, h⟩ := bind_ok h
    obtain ⟨_, _, h⟩ := bind_ok h
    cases h; exact ⟨rfl, rfl⟩

/-- The conjunction of the two machines. -/
def finRecipe : Recipe := .conjunction (.component exA none) (.component exC none)
def finEnv : CompileEnv FinFed := ⟨fun _ l => l, finOrders ["go"] ["out"], 0⟩

theorem finEnv_perm : finEnv.Perm := fun _ _ => .refl _

theorem finRecipe_ok : finRecipe.Ok (dim FinFed) :=
  ⟨fun c hc => by
    rcases List.mem_cons.1 hc with rfl | hc
    · exact Component.ok_of_okB (by decide)
    · rw [List.mem_singleton.1 hc]; exact Component.ok_of_okB (by decide), by simp [finRecipe, Recipe.quotientClocks]⟩

theorem finRecipe_fair : finRecipe.FairEnv finEnv := by
  refine ⟨trivial, trivial, fun n i j k sl sr s h1 h2 h3 m => ?_⟩
  obtain ⟨x, hx, h1⟩ := bind_ok h1
  obtain ⟨y, hy, h2⟩ := bind_ok h2
  cases h1; cases h2
  obtain ⟨a1, a2⟩ := compile_actions hx
  obtain ⟨b1, b2⟩ := compile_actions hy
  obtain ⟨_, _, rfl⟩ := Sys.newConjunction_eq h3
  simp only [Sys.ts, Sys.inputs, Sys.outputs, a1, a2, b1, b2]
  exact ⟨.of_eq (show ["go"] = _ by decide +kernel), .of_eq (show ["out"] = _ by decide +kernel)⟩

/-- It is compiled, and its clocks are reduced, in finitely many steps. -/
example : (Terminates fun n => finRecipe.compile (finEnv.withFuel n) 0) ∧
    ∀ (ord : HashOrder), Terminates fun n => clockReduce (finEnv.withFuel n) (finEnv.withFuel n) ord ord
      (fun _ => ["go", "out"]) finRecipe none 3 none :=
  ⟨C59_compile finFed_finite _ _ _ finEnv_perm finRecipe_ok finRecipe_fair,
   fun ord => C59_clock_reduction finFed_finite _ _ ord ord _ _ _ _ _ finEnv_perm finEnv_perm finRecipe_ok
    (fun _ h => by cases h) finRecipe_fair (fun _ h => by cases h)⟩

/-- The conjunction is not refused. -/
example : (match finRecipe.compile (finEnv.withFuel 20) 0 with | .ok _ => true | _ => false) = true := by
  decide +kernel

end Reveaal
