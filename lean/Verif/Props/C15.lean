import Verif.Lemmas.Reachability
import Verif.Props.C35
import Verif.Props.C12

/-! # C15: an unreachable verdict is right -/

namespace Reveaal
open ZoneLib
variable {F : Type} [ZoneLib F]

/-- A location that matches a pattern satisfies the invariants of the named positions. -/
theorem pattern_inv (s : Sys F) (hs : s.Accepted) (x e : LocTree F) (hx : s.IsLoc x)
    (he : s.IsPattern e) (hm : e.id.Matches x.id) : InvSet x ⊆ InvSet e := by
  induction hs generalizing x e with
  | comp hc ho h =>
    have wf := compileWith_wf hc ho h
    rcases he with rfl | he
    · intro v _ i hi; cases hi
    · have : x = e := by
        apply (Sys.good_comp wf).unique x e hx he
        obtain ⟨p, hp, rfl⟩ := hx
        obtain ⟨q, hq, rfl⟩ := he
        obtain ⟨n, inv, ty, hl⟩ := wf.leafs p hp
        obtain ⟨m, inv', ty', hl'⟩ := wf.leafs q hq
        rw [hl, hl'] at hm ⊢
        simp only [LocTree.id] at hm ⊢
        cases hm; rfl
      rw [this]
  | composition _ _ h ihl ihr =>
    obtain ⟨_, rfl⟩ := Sys.newComposition_eq h
    obtain ⟨a, b, ha, hb, h1⟩ := hx
    obtain ⟨a', b', ha', hb', h2⟩ := he
    intro v hv
    rw [mem_compose_inv h1] at hv
    rw [mem_compose_inv h2]
    cases h1; cases h2
    rw [LocTree.id, LocTree.id, matches_comp] at hm
    exact ⟨ihl a a' ha ha' hm.1 hv.1, ihr b b' hb hb' hm.2 hv.2⟩
  | conjunction _ _ h ihl ihr =>
    obtain ⟨_, _, rfl⟩ := Sys.newConjunction_eq h
    obtain ⟨a, b, ha, hb, h1⟩ := hx
    obtain ⟨a', b', ha', hb', h2⟩ := he
    intro v hv
    rw [mem_compose_inv h1] at hv
    rw [mem_compose_inv h2]
    cases h1; cases h2
    rw [LocTree.id, LocTree.id, matches_conj] at hm
    exact ⟨ihl a a' ha ha' hm.1 hv.1, ihr b b' hb hb' hm.2 hv.2⟩
  | quotient _ _ h0 hn h ihl ihr =>
    obtain ⟨_, rfl⟩ := Sys.newQuotient_eq h
    obtain ⟨a', b', ha', hb', rfl⟩ := he
    intro v _ i hi; cases hi

/-- The zone of a state contains every valuation that can be reached from it by waiting. -/
def TimeClosed (s : State F) : Prop :=
  ∀ v ∈ den s.zone, v ∈ InvSet s.loc → ∀ d, TS.CanDelay s.loc v d → delay (dim F) v d ∈ den s.zone

/-- If the search answers "unreachable" then no run from a valuation of the start state, with any actions
and any delays, gets to a location that matches the requested one with a valuation of the requested zone.
Missing from the full property: start states whose zone is not closed under waiting.  For these the answer
can be wrong, see `C15_violated_start_not_time_closed`. -/
theorem C15_unreachable_partial (zoneBounds : F → Bounds) (s : Sys F) (hs : s.Accepted)
    (start goal : State F) (hstart : s.IsLoc start.loc) (hgoal : s.IsPattern goal.loc)
    (hclosed : TimeClosed start) (fuel : Nat)
    (h : findPath zoneBounds s.ts start goal fuel = .ok none) :
    ∀ v₀ ∈ den start.zone, v₀ ∈ InvSet start.loc → ∀ l v, s.ts.RunFrom start.loc v₀ l v →
      goal.loc.id.Matches l.id → v ∉ den goal.zone := by
  intro v₀ hv₀ hi₀ l v hrun hm hv
  have hg := hs.good
  obtain ⟨hl, hval⟩ := hg.run hstart (den_valid hv₀) hrun
  unfold findPath at h
  split at h
  · -- trivially unreachable
    rename_i ht
    unfold triviallyUnreachable at ht
    split at ht
    · rename_i he
      rw [Bool.or_eq_true, ZoneLib.isEmpty_iff, ZoneLib.isEmpty_iff] at he
      rcases he with he | he
      · rw [he] at hv₀; exact hv₀
      · rw [he] at hv; exact hv
    · split at ht
      · rename_i i hi
        have h1 : v ∈ InvSet goal.loc := pattern_inv s hs l _ hl hgoal hm (Sys.run_inv hi₀ hrun)
        have h2 : hasIntersection goal.zone i = true := (hasIntersection_iff _ _).2 ⟨v, hv, h1 i hi⟩
        rw [h2] at ht; cases ht
      · cases ht
  · unfold reachabilitySearch at h
    dsimp only at h
    rcases searchLoop_spec hg (fun a ha => mem_sortedActions.1 ha) fuel _ [] _
      (searchInv_init (s := s) (start := start.applyInvariants) hstart) h with ⟨_, D, inv⟩ | ⟨_, _, h', _⟩
    · obtain ⟨startMem, locs, _, notReached, covered, _, _⟩ := inv
      simp only [List.map_nil, List.append_nil] at startMem locs covered
      have hcov : Sys.CoveredVal D l v := by
        refine Sys.run_covered hg locs ?_ ⟨start.applyInvariants, startMem, rfl, ?_, ?_⟩ hrun
        · intro p hp a trans ha htr t ht hu
          obtain ⟨q, hq, h1, h2⟩ := covered p hp a (mem_sortedActions.2 ha) trans htr t ht hu
          have := (hg.next_ok (locs p hp) ha htr t ht).1
          exact ⟨q, hq, hg.unique _ _ (locs q hq) this h1, h2⟩
        · exact mem_applyInvariants.2 ⟨hv₀, hi₀⟩
        · intro d hd
          exact mem_applyInvariants.2 ⟨hclosed v₀ hv₀ hi₀ d hd, hd.2 d hd.1 (le_refl _)⟩
      obtain ⟨p, hp, rfl, hvp, _⟩ := hcov
      have hnr := notReached p hp
      obtain ⟨b, hb, hbm⟩ := C35_match_partial s hs p.loc goal.loc hl hgoal
      unfold reachedEnd at hnr
      rw [hb, hbm.2 hm] at hnr
      simp only [ok_bind, if_true, Except.ok.injEq] at hnr
      rw [(hasIntersection_iff _ _).2 ⟨v, hvp, hv⟩] at hnr
      cases hnr
    · cases h'

/-- With no start state in the query, the search starts from the initial state of the system: if it
answers "unreachable" then the system never gets into the requested state. -/
theorem C15_unreachable_from_initial (zoneBounds : F → Bounds) (s : Sys F) (hs : s.Accepted)
    (start goal : State F) (hstart : s.ts.initialState = .ok (some start)) (hgoal : s.IsPattern goal.loc)
    (fuel : Nat) (h : findPath zoneBounds s.ts start goal fuel = .ok none) :
    ∀ l v, s.ts.Reach l v → goal.loc.id.Matches l.id → v ∉ den goal.zone := by
  intro l v hr hm
  obtain ⟨l₀, h1, h2, hrun⟩ := Sys.reach_run hr
  rcases Sys.initialState_spec h1 with ⟨hn, he⟩ | ⟨z, hz, hd⟩
  · rw [hn] at hstart; cases hstart
  rw [hz] at hstart; cases hstart
  have hl0 : s.IsLoc l₀ := by
    obtain ⟨o, h3, h4⟩ := hs.good.initial
    have h1 : s.initialLoc = _ := h1
    rw [h1] at h3; cases h3
    exact h4 _ rfl
  refine C15_unreachable_partial zoneBounds s hs ⟨l₀, z⟩ goal hl0 hgoal ?_ fuel h zeroVal ?_ h2 l v hrun hm
  · intro v hv _ d hd'
    dsimp only at hv hd' ⊢
    rw [hd] at hv ⊢
    refine ⟨?_, hd'.2 d hd'.1 (le_refl _)⟩
    rw [den_init] at hv ⊢
    refine ⟨delay_valid hv.1.1 hd'.1, fun i j h1 h2 h3 h4 => ?_⟩
    simp only [delay, h1, h2, h3, h4, and_self, if_true]
    rw [hv.1.2 i j h1 h2 h3 h4]
  · dsimp only; rw [hd]; exact ⟨Sys.zero_init, h2⟩

/-- Bounds that never help, as a stand-in for those of the requested zone. -/
def noBounds : Fed4 → Bounds := fun _ => Bounds.new

/-- Non-vacuity: in `A`, the location `L1` with `x > 5` cannot be reached from the initial state, and the
search says so. -/
example : ∃ start goal : State Fed4, sysA.ts.initialState = .ok (some start) ∧
    sysA.IsPattern goal.loc ∧ (∃ v, v ∈ den goal.zone) ∧
    findPath noBounds sysA.ts start goal 10 = .ok none := by
  let l0 : LocTree Fed4 := .leaf (.simple "L0") none .initial
  let l1 : LocTree Fed4 := .leaf (.simple "L1") (some (constrain univ 1 0 (.LE 5))) .normal
  refine ⟨⟨l0, init⟩, ⟨l1, constrain univ 0 1 (.LS (-5))⟩, rfl, .inr
    ⟨(.simple "L1", l1), List.mem_cons_of_mem _ List.mem_cons_self, rfl⟩, ?_, passes_eq (by decide +kernel)⟩
  apply isEmpty_false_iff.1
  decide +kernel

/-- One location without edges. -/
def exWait : Component := ⟨"W", ⟨[], [("x", 1)]⟩, [⟨"L", none, .initial, "NORMAL"⟩],
  [⟨"e", "L", "L", .input, some (.ge (.var "x") (.int 9)), none, "a"⟩]⟩

theorem exWait_ok : exWait.Ok (dim Fed4) := by
  constructor
  · intro p hp; simp [exWait] at hp; subst hp; decide
  · intro e he g hg
    simp only [exWait, List.mem_singleton] at he; subst he; cases hg; exact ⟨trivial, trivial⟩
  · intro l hl g hg
    simp only [exWait, List.mem_singleton] at hl; subst hl; cases hg
  · intro e he us hus
    simp only [exWait, List.mem_singleton] at he; subst he; cases hus

/-- The full property is false: from the start state `L, x = 0` given in a query, the state `L, x ≥ 1` is
reached by waiting one time unit, but the search answers "unreachable". -/
theorem C15_violated_start_not_time_closed :
    ∃ (s : Sys Fed4) (start goal : State Fed4), s.Accepted ∧ s.IsLoc start.loc ∧ s.IsPattern goal.loc ∧
      (∀ zb : Fed4 → Bounds, findPath zb s.ts start goal 10 = .ok none) ∧
      ∃ v₀ ∈ den start.zone, v₀ ∈ InvSet start.loc ∧ ∃ v ∈ den goal.zone,
        s.ts.RunFrom start.loc v₀ goal.loc v := by
  let c : CompComp Fed4 := getOk (CompComp.compile id exWait 0) (by decide +kernel)
  let l : LocTree Fed4 := .leaf (.simple "L") none .initial
  have hl : (Sys.comp c).IsLoc l := ⟨(.simple "L", l), List.mem_cons_self, rfl⟩
  have hv : Valid (dim Fed4) (delay (dim Fed4) zeroVal 1) := delay_valid Sys.zeroVal_valid (by norm_num)
  refine ⟨.comp c, ⟨l, constrainEq univ 1 0⟩, ⟨l, constrain univ 0 1 (.LE (-1))⟩,
    .comp exWait_ok (fun _ => .refl _) (getOk_eq _), hl, .inr hl, ?_, zeroVal, ?_, ?_,
    delay (dim Fed4) zeroVal 1, ?_, ?_⟩
  · intro zb
    unfold findPath
    rw [if_neg (by decide +kernel)]
    unfold reachabilitySearch
    dsimp only
    generalize zb _ = b
    rfl
  · dsimp only
    rw [den_constrainEq _ _ _ (by decide) (by decide), den_univ]
    exact ⟨Sys.zeroVal_valid, by simp [zeroVal]⟩
  · intro i hi; cases hi
  · dsimp only
    rw [den_constrain _ _ _ _ (by decide) (by decide), den_univ]
    exact ⟨hv, by simp [Ineq.Sat, delay, zeroVal, dim_fed4]⟩
  · exact .delay .refl ⟨by norm_num, fun d' _ _ i hi => by cases hi⟩

end Reveaal
