import Verif.Lemmas.InputEnabler
import Verif.Lemmas.Run
import Verif.Examples

/-!
# C27: input enabling is complete

Partial: proved for components without wildcard edges (`*`) in which no edge assigns two different values to one
clock.  Both restrictions are needed, see the witnesses at the end.
-/

namespace Reveaal
open ZoneLib

variable {F : Type} [ZoneLib F]

/-- **C27**: after input enabling, in every location and every valuation of its invariant, the component can perform
every one of the inputs.  The zones have the dimension of the component alone, as in the code. -/
theorem C27_enabled_partial (c c' : Component) (inputs : List String) (hc : c.Ok (dim F))
    (hg : GoodNaming c.decls.clocks)
    (hix : (c.decls.clocks.map (·.2)).Nodup) (hn : dim F = c.decls.clocks.length + 1)
    (ha : c.UpdatesAgree) (hstar : ∀ e ∈ c.edges, e.action ≠ "*")
    (h : makeInputEnabled F c inputs = .ok c')
    (order : List (LocId × LocTree F) → List (LocId × LocTree F)) (ho : ∀ l, (order l).Perm l) (id : Nat)
    (x : CompComp F) (hx : CompComp.compile order c' id = .ok x)
    (l : LocTree F) (hl : (Sys.comp x).IsLoc l) (a : String) (hin : a ∈ inputs) (hna : a ≠ "*")
    (v : Val) (hv : Valid (dim F) v) (hinv : v ∈ InvSet l) :
    a ∈ x.inputs ∧ ∃ l' v', (Sys.comp x).ts.Act l v a l' v' := by
  obtain ⟨new, rfl, hnew, hall⟩ := makeInputEnabled_spec h
  obtain ⟨hins, _, hlocs, hedges⟩ := compileWith_content ho hx
  obtain ⟨p, hp, rfl⟩ := hl
  obtain ⟨hid, loc, hloc, hs⟩ := hlocs p hp
  have hcomp : ∀ e ∈ c.edges, ∃ t : Transition F, Transition.fromEdge c e = .ok t := by
    intro e he
    obtain ⟨t, ht, _⟩ := hedges e (List.mem_append_left _ he)
    exact ⟨t, ht⟩
  obtain ⟨inv, hi, hin'⟩ := hall loc hloc
  obtain ⟨r, hr, hrn⟩ := hin' a hin
  have hinv' : v ∈ den inv := by
    have hs' : LocTree.simple c.decls loc = .ok p.2 := hs
    rw [invZone_spec hs' hi, mem_invOrUniv]
    exact ⟨hv, hinv⟩
  obtain ⟨s1, s2⟩ := missingEdge_spec hc ha hg hix hn hcomp hr
  -- an input edge of the new component that can be taken
  have key : ∃ e ∈ c.edges ++ new, e.sync = .input ∧ e.source = loc.id ∧ e.action = a ∧
      ∃ t : Transition F, Transition.fromEdge c e = .ok t ∧ CanTake t v := by
    have old : (∃ e ∈ inputEdges c loc a, ∃ t : Transition F, Transition.fromEdge c e = .ok t ∧ CanTake t v) →
        ∃ e ∈ c.edges ++ new, e.sync = .input ∧ e.source = loc.id ∧ e.action = a ∧
          ∃ t : Transition F, Transition.fromEdge c e = .ok t ∧ CanTake t v := by
      rintro ⟨e, he, t, ht, hct⟩
      obtain ⟨hem, hp⟩ := List.mem_filter.1 he
      simp only [Bool.and_eq_true, Bool.or_eq_true, decide_eq_true_eq] at hp
      refine ⟨e, List.mem_append_left _ hem, hp.1.1, hp.1.2, ?_, t, ht, hct⟩
      exact hp.2.resolve_right (hstar e hem)
    cases hre : r with
    | none => exact old (s1 hre v hinv')
    | some e' =>
      obtain ⟨q1, q2, q3, q4, q5, q6, q7, q8⟩ := s2 e' hre
      by_cases hex : ∃ e ∈ inputEdges c loc a, ∃ t : Transition F, Transition.fromEdge c e = .ok t ∧ CanTake t v
      · exact old hex
      · have hmem := List.mem_append_right c.edges (hrn e' hre)
        obtain ⟨t', ht', _⟩ := hedges e' hmem
        have ht' : Transition.fromEdge c e' = .ok t' := ht'
        refine ⟨e', hmem, q3, q1, q4, t', ht', (q8 t' ht' v).2 ⟨hinv', hex⟩, ?_⟩
        obtain ⟨⟨l2, hl2, hs2⟩, _, hu1, _⟩ := fromEdge_spec ht'
        rw [hu1 q5, runUpdates]
        -- the target of the loop is the location itself
        have : loc ∈ c.locations.filter (fun l => l.id = e'.target) := by
          rw [List.mem_filter]; exact ⟨hloc, by simp [q2]⟩
        rw [hl2, List.mem_singleton] at this
        subst this
        have hs' : LocTree.simple c.decls loc = .ok p.2 := hs
        rw [hs'] at hs2
        rw [← Except.ok.inj hs2]
        exact hinv
  obtain ⟨e, he, hsync, hsrc, hact, t, ht, hct⟩ := key
  have hinp : a ∈ x.inputs := by
    rw [hins]
    unfold Component.specificActions
    rw [mem_mkSet]
    exact List.mem_map.2 ⟨e, List.mem_filter.2 ⟨he, by simp [hsync, hact, hna]⟩, hact⟩
  refine ⟨hinp, ?_⟩
  have hhas : (Sys.comp x).ts.hasAction a = true := by
    show (x.inputs.contains a || x.outputs.contains a) = true
    simp [hinp]
  obtain ⟨t1, ht1, es, hlk, hmem⟩ := hedges e he
  have ht1 : Transition.fromEdge c e = .ok t1 := ht1
  rw [ht] at ht1
  cases ht1
  have hpid : p.2.id = .simple e.source := by
    obtain ⟨i, hp2, _⟩ := simple_spec hs
    rw [hp2, hsrc]; rfl
  have hself : ∀ trans, (Sys.comp x).ts.next p.2 a = .ok trans → Transition.withoutId p.2 ∈ trans →
      ∃ l' v', (Sys.comp x).ts.Act p.2 v a l' v' := by
    intro trans hnx hm
    refine ⟨_, _, hhas, trans, hnx, _, hm, ⟨?_, ?_⟩, rfl, rfl⟩
    · simp only [Transition.withoutId, den_univ]; exact hv
    · exact hinv
  have hcon : (x.inputs.contains a || x.outputs.contains a) = true := by simp [hinp]
  have hnext : (Sys.comp x).ts.next p.2 a = CompComp.next x p.2 a := rfl
  unfold CompComp.next at hnext
  rw [hcon] at hnext
  simp only [Bool.not_true, Bool.false_eq_true, if_false] at hnext
  split at hnext
  · exact hself _ hnext (by simp)
  · split at hnext
    · exact hself _ hnext (by simp)
    · rw [hpid, hlk] at hnext
      refine ⟨_, _, hhas, _, hnext, t, ?_, hct, rfl, rfl⟩
      exact List.mem_map.2 ⟨_, List.mem_filter.2 ⟨hmem, by simp [hact]⟩, rfl⟩

/-! ## Examples -/

/-- Federations of dimension 2, for components with one clock. -/
abbrev Fed2 := ZoneImpl.Fed 2
instance fed2Lib : ZoneLib Fed2 := ZoneImpl.lib 1

/-- A location with an invariant in which `a` is only possible early and resets the clock, and `b` nowhere. -/
def exShy : Component := ⟨"S", ⟨[], [("x", 1)]⟩,
  [⟨"L", some (.le (.var "x") (.int 5)), .initial, "NORMAL"⟩, ⟨"M", some (.le (.var "x") (.int 2)), .normal, "NORMAL"⟩],
  [⟨"e", "L", "M", .input, some (.le (.var "x") (.int 3)), some [⟨"x", .int 1⟩], "a"⟩,
   ⟨"f", "M", "L", .output, none, none, "c"⟩]⟩

/-- The component with the added loops. -/
def exShyEnabled : Component := { exShy with edges := exShy.edges ++ [
  ⟨"input_L_a", "L", "L", .input, some (.and (.le (.var "x") (.int 5)) (.gt (.var "x") (.int 3))), none, "a"⟩,
  ⟨"input_L_b", "L", "L", .input, some (.le (.var "x") (.int 5)), none, "b"⟩,
  ⟨"input_M_a", "M", "M", .input, some (.le (.var "x") (.int 2)), none, "a"⟩,
  ⟨"input_M_b", "M", "M", .input, some (.le (.var "x") (.int 2)), none, "b"⟩] }

theorem exShy_enabled : makeInputEnabled Fed2 exShy ["a", "b"] = .ok exShyEnabled := by decide +kernel

/-- The hypotheses of `C27_enabled_partial` hold. -/
example : exShy.Ok (dim Fed2) ∧ GoodNaming exShy.decls.clocks ∧
    (exShy.decls.clocks.map (·.2)).Nodup ∧ dim Fed2 = exShy.decls.clocks.length + 1 ∧
    exShy.UpdatesAgree ∧ (∀ e ∈ exShy.edges, e.action ≠ "*") ∧
    makeInputEnabled Fed2 exShy ["a", "b"] = .ok exShyEnabled ∧
    ∃ x : CompComp Fed2, CompComp.compile id exShyEnabled 0 = .ok x ∧ x.locations.length = 2 := by
  refine ⟨Component.ok_of_okB (by decide), ⟨by decide, by decide⟩, by decide, rfl, ?_, by decide, exShy_enabled,
    getOk (CompComp.compile id exShyEnabled 0) (by decide +kernel), getOk_eq _, by decide +kernel⟩
  intro e he us hus u hu u' hu' _
  simp only [exShy, List.mem_cons, List.not_mem_nil, or_false] at he
  rcases he with rfl | rfl
  · cases hus
    simp only [List.mem_cons, List.not_mem_nil, or_false] at hu hu'
    rw [hu, hu']
  · cases hus

/-- An input edge with the wildcard action; `a` is an action of the other location. -/
def exStar : Component := ⟨"S", ⟨[], [("x", 1)]⟩,
  [⟨"L", none, .initial, "NORMAL"⟩, ⟨"M", none, .normal, "NORMAL"⟩],
  [⟨"e", "L", "M", .input, none, none, "*"⟩, ⟨"f", "M", "L", .input, none, none, "a"⟩]⟩

def sysStar : CompComp Fed2 := getOk (CompComp.compile id exStar 0) (by decide +kernel)

/-- The full property is false: a wildcard edge counts as an edge on every input when loops are added, but the compiled
component does not perform `a` by it.  The component is unchanged and `a` is impossible in the initial state. -/
theorem C27_violated_wildcard : makeInputEnabled Fed2 exStar ["a"] = .ok exStar ∧
    CompComp.compile id exStar 0 = .ok sysStar ∧ "a" ∈ sysStar.inputs ∧
    ∃ l, (Sys.comp sysStar).IsLoc l ∧ zeroVal ∈ InvSet l ∧ ∀ l' v', ¬ (Sys.comp sysStar).ts.Act l zeroVal "a" l' v' := by
  refine ⟨by decide +kernel, getOk_eq _, by decide +kernel, .leaf (.simple "L") none .initial, ?_, ?_, ?_⟩
  · exact ⟨(.simple "L", .leaf (.simple "L") none .initial), .head _, rfl⟩
  · rintro i ⟨⟩
  · rintro l' v' ⟨_, trans, h1, t, ht, _⟩
    have : (Sys.comp sysStar).ts.next (.leaf (.simple "L") none .initial) "a" = .ok [] := rfl
    rw [this] at h1
    cases h1
    cases ht

/-- An edge that assigns 0 and then 5 to the clock, into a location where the clock is at most 3. -/
def exReset2 : Component := ⟨"S", ⟨[], [("x", 1)]⟩,
  [⟨"L", none, .initial, "NORMAL"⟩, ⟨"M", some (.le (.var "x") (.int 3)), .normal, "NORMAL"⟩],
  [⟨"e", "L", "M", .input, none, some [⟨"x", .int 0⟩, ⟨"x", .int 5⟩], "a"⟩,
   ⟨"f", "M", "L", .input, none, none, "a"⟩]⟩

def sysReset2 : CompComp Fed2 := getOk (CompComp.compile id exReset2 0) (by decide +kernel)

/-- Also false if an edge assigns a clock twice: the pre-image is computed from the first value, the step uses the
last.  The edge is taken to be enabled everywhere, so no loop is added, but it leads out of the invariant. -/
theorem C27_violated_double_update : makeInputEnabled Fed2 exReset2 ["a"] = .ok exReset2 ∧
    CompComp.compile id exReset2 0 = .ok sysReset2 ∧ "a" ∈ sysReset2.inputs ∧
    ∃ l, (Sys.comp sysReset2).IsLoc l ∧ zeroVal ∈ InvSet l ∧
      ∀ l' v', ¬ (Sys.comp sysReset2).ts.Act l zeroVal "a" l' v' := by
  refine ⟨by decide +kernel, getOk_eq _, by decide +kernel, .leaf (.simple "L") none .initial, ?_, ?_, ?_⟩
  · exact ⟨(.simple "L", .leaf (.simple "L") none .initial), .head _, rfl⟩
  · rintro i ⟨⟩
  · rintro l' v' ⟨_, trans, h1, t, ht, hct, _⟩
    have hn : ∃ m : Fed2, applyConstraints exReset2.decls (.le (.var "x") (.int 3)) univ = .ok m ∧
        (Sys.comp sysReset2).ts.next (.leaf (.simple "L") none .initial) "a" =
          .ok [⟨.simple "e", univ, .leaf (.simple "M") (some m) .normal, [⟨1, 0⟩, ⟨1, 5⟩]⟩] ∧
        isEmpty (inter m (constrainEq univ 1 5)) = true :=
      ⟨getOk (applyConstraints exReset2.decls (.le (.var "x") (.int 3)) univ) (by decide +kernel), getOk_eq _, rfl,
        by decide +kernel⟩
    obtain ⟨m, _, hn, he⟩ := hn
    rw [hn] at h1
    cases h1
    obtain rfl := List.mem_singleton.1 ht
    have h5 := hct.2 m rfl
    rw [ZoneLib.isEmpty_iff, den_inter, den_constrainEq _ _ _ (by decide) (by decide)] at he
    have : runUpdates [⟨1, 0⟩, ⟨1, 5⟩] zeroVal ∈ den m ∩ {v : Val | v ∈ den (univ : Fed2) ∧ v 1 = ((5 : Int) : ℝ)} := by
      refine ⟨h5, ?_, ?_⟩
      · rw [den_univ]; exact den_valid h5
      · simp [runUpdates]
    rw [he] at this
    exact this

end Reveaal
