import Verif.Props.C80Det
import Verif.Props.C64Save

/-!
# C80: a system and the component it is saved as refine each other
-/

namespace Reveaal
open ZoneLib

section
variable {F G : Type} [ZoneLib F] [ZoneLib G]

theorem Ref.of_bisim {s : Sys F} {t : Sys G} {V : Val → Val → Prop} {R : LocTree F → LocTree G → Prop} (hs : s.Good)
    (ht : t.Good) (h1 : s.ts.BisimUpTo t.ts V R) (hi : ∀ a, a ∈ s.ts.inputs ↔ a ∈ t.ts.inputs)
    (ho : ∀ a, a ∈ s.ts.outputs ↔ a ∈ t.ts.outputs) {l : LocTree F} {m : LocTree G} (a : s.ts.initialLoc = .ok (some l))
    (b : t.ts.initialLoc = .ok (some m)) (c : R l m) : Ref s.ts t.ts := by
  refine ⟨fun a => (hi a).1, fun a => (ho a).2, ?_⟩
  refine .inr ⟨l, m, a, b, fun hz => ⟨fun l v m w => R l m ∧ V v w ∧ s.ts.Reach l v ∧ t.ts.Reach m w, ⟨?_, ?_, ?_⟩, c,
    h1.zero, .init a hz, .init b ((h1.inv _ _ c _ _ Sys.zeroVal_valid Sys.zeroVal_valid h1.zero).1 hz)⟩⟩
  · rintro l v m w o l' v' ⟨hR, hV, r1, r2⟩ hm hact
    obtain ⟨m', w', h4, h5, h6⟩ := h1.left _ _ hR _ _ _ _ _ (good_reach hs r1).2 (good_reach ht r2).2 hV hact
    exact ⟨fun _ => ⟨m', w', h4, h5, h6, .act r1 hact, .act r2 h4⟩, fun hn => absurd ((ho _).1 hm) hn⟩
  · rintro l v m w o m' w' ⟨hR, hV, r1, r2⟩ hm hact
    obtain ⟨l', v', h4, h5, h6⟩ := h1.right _ _ hR _ _ _ _ _ (good_reach hs r1).2 (good_reach ht r2).2 hV hact
    exact ⟨fun _ => ⟨l', v', h4, h5, h6, .act r1 h4, .act r2 hact⟩, fun hn => absurd ((hi _).2 hm) hn⟩
  · rintro l v m w d ⟨hR, hV, r1, r2⟩ hd
    have hd' := h1.canDelay hR (good_reach hs r1).2 (good_reach ht r2).2 hV hd
    exact ⟨hd', hR, h1.delay _ _ d hV, .delay r1 hd, .delay r2 hd'⟩

theorem Ref.of_equivalent {s : Sys F} {t : Sys G} {V : Val → Val → Prop} (hs : s.Good) (ht : t.Good)
    (h : s.ts.EquivalentUpTo t.ts V) (hi : ∀ a, a ∈ s.ts.inputs ↔ a ∈ t.ts.inputs)
    (ho : ∀ a, a ∈ s.ts.outputs ↔ a ∈ t.ts.outputs) {l : LocTree F} (hl : s.ts.initialLoc = .ok (some l)) :
    Ref s.ts t.ts ∧ Ref t.ts s.ts ∧ ∃ m, t.ts.initialLoc = .ok (some m) := by
  obtain ⟨R, h1, h2, _⟩ := h
  obtain ⟨m, hm, hr⟩ := h2 l hl
  exact ⟨.of_bisim hs ht h1 hi ho hl hm hr,
    .of_bisim ht hs h1.symm (fun a => (hi a).symm) (fun a => (ho a).symm) hm hl hr, m, hm⟩

/-- A component alone, and where it stands in a query. -/
theorem named_component {load : String → Res Component} {n : String} {c : Component} (hn : load n = .ok c)
    (hnum : c.decls.Numbered) {k k' : Nat} {q q' : Option Nat} {r : Recipe}
    (hr : getSystemRecipe load (.component n none) k q = .ok (r, k', q')) {x : CompComp F}
    {order : List (LocId × LocTree F) → List (LocId × LocTree F)} (ho : ∀ l, (order l).Perm l) {i : Nat}
    (hx : CompComp.compile order c i = .ok x) (hok : c.Ok (dim F)) (hlen : c.decls.clocks.length < dim F)
    (hc : ∀ c ∈ r.components, c.Reducible (dim G)) {t : Sys G} (ht : r.Means t) {m : LocTree F}
    (hm : (Sys.comp x).ts.initialLoc = .ok (some m)) :
    Ref t.ts (Sys.comp x).ts ∧ Ref (Sys.comp x).ts t.ts ∧ t.inputs = x.inputs ∧ t.outputs = x.outputs := by
  obtain ⟨c0, h1, h⟩ := bind_ok hr
  rw [hn] at h1
  cases h1
  cases h
  have hred := hc _ (List.mem_singleton.2 rfl)
  obtain ⟨env, i', j, hp, ht⟩ := ht
  obtain ⟨x', hx', ht⟩ := bind_ok ht
  cases ht
  have hb : c.ByName := ⟨hred.byName.guards, hred.byName.invs⟩
  have hx0 : CompComp.compile order (c.setClockIndices 0).1 i = .ok x := by
    have e : (c.setClockIndices 0).1 = c := by
      unfold Component.setClockIndices Decls.setClockIndices
      simp
    rw [e]; exact hx
  have hj : ∀ p ∈ c.decls.clocks, 0 < p.2 + 0 ∧ p.2 + 0 < dim F := by
    intro p hm
    have := hnum.mem_iff.1 (List.mem_map.2 ⟨p, hm, rfl⟩)
    rw [List.mem_range'_1] at this
    omega
  have eq := C54_position_partial hb hred.clear hj (hp _) ho hx' hx0
  have e1 := compileWith_content (hp _) hx'
  have e2 := compileWith_content ho hx
  have g' : (Sys.comp x').Good := (Sys.Accepted.comp hred.clear.ok (hp _) hx').good
  have g : (Sys.comp x).Good := (Sys.Accepted.comp hok ho hx).good
  have ei : x'.inputs = x.inputs := e1.1.trans e2.1.symm
  have eo : x'.outputs = x.outputs := e1.2.1.trans e2.2.1.symm
  obtain ⟨R, b, _, b2⟩ := eq
  obtain ⟨m', hm', hr'⟩ := b2 m hm
  have i1 : ∀ a, a ∈ (Sys.comp x').ts.inputs ↔ a ∈ (Sys.comp x).ts.inputs := fun a => by
    rw [show (Sys.comp x').ts.inputs = (Sys.comp x).ts.inputs from ei]
  have i2 : ∀ a, a ∈ (Sys.comp x').ts.outputs ↔ a ∈ (Sys.comp x).ts.outputs := fun a => by
    rw [show (Sys.comp x').ts.outputs = (Sys.comp x).ts.outputs from eo]
  exact ⟨.of_bisim g' g b i1 i2 hm' hm hr', .of_bisim g g' b.symm (fun a => (i1 a).symm) (fun a => (i2 a).symm) hm hm' hr',
    ei, eo⟩

end

section
variable {Z : Nat → Type} [∀ d, ZoneLib (Z d)]

/-- **C80** A system and the component that `get-component` or `prune` answers with refine each other: if the component is
stored as `N`, then `refinement: N <= A` and `refinement: A <= N` are answered with yes, unless it is reported that the
determinism or consistency check fails.

Missing from the full property: the expression may not contain quotients, the component has to have the same inputs and
outputs as the system (actions of the system that it can never take get lost), and the conditions of C64. -/
theorem C80_saved_partial (hZ : ∀ d, dim (Z d) = d + 1) (X Y : QueryEnv Z) (hX : X.Fair) (hX' : X.FairSaves) (hY : Y.Fair)
    (load : String → Res Component) (hload : ∀ n c, load n = .ok c → c.decls.Numbered) (e : SaveExpr)
    (he : e.system.NoQuotient) (d : Nat) (s : Sys (Z d)) (r : Recipe) (q : Option Nat)
    (hr : getRecipes load [e.system] 0 none = .ok ([r], d, q)) (hc : X.Askable r d q) (hread : r.Readable) (hs : r.Means s)
    (hinit : s.initialLoc ≠ .ok none) (c : Component)
    (h : X.run load (.getComponent e) = .ok (.getComponent c) ∨ X.run load (.prune e) = .ok (.getComponent c))
    (d' : Nat) (hd : ∃ s', X.system load e.system = .ok ⟨d', s'⟩) (hok : c.Ok (d' + 1)) (hlen : c.decls.clocks.length ≤ d')
    (order : List (LocId × LocTree (Z d')) → List (LocId × LocTree (Z d'))) (ho : ∀ l, (order l).Perm l) (i : Nat)
    (x : CompComp (Z d')) (hx : CompComp.compile order c i = .ok x)
    (hin : ∀ a, a ∈ s.inputs ↔ a ∈ x.inputs) (hout : ∀ a, a ∈ s.outputs ↔ a ∈ x.outputs)
    (n : String) (hn : load n = .ok c) (k : Nat) (t u : Sys (Z k)) (m : Nat) (o : Option (RefFailure (Z m)))
    (hp : ∀ side g, o ≠ some (.precheck side g)) :
    (Y.Asks load (.component n none) e.system k t u →
      Y.run load (.refinement (.component n none) e.system) = .ok (.refinement m o) → o = none) ∧
    (Y.Asks load e.system (.component n none) k u t →
      Y.run load (.refinement e.system (.component n none)) = .ok (.refinement m o) → o = none) := by
  obtain ⟨V, hV⟩ := C64_component_partial hZ X hX hX' load hload e r d q hr hc hread s hs hinit c h d' hd
  have hV := hV order ho i x hx
  have gs : s.Good := by
    obtain ⟨env, _, _, hp, hs⟩ := hs
    refine (Recipe.compile_accepted hp ⟨fun c hm => by rw [hZ]; exact (hc.comps c hm).1.clear.ok, ?_⟩ hs).good
    rw [(recipe_shift hload he (getRecipes_one hr)).2.1]
    simp
  have gx : (Sys.comp x).Good := (Sys.Accepted.comp (by rw [hZ]; exact hok) ho hx).good
  obtain ⟨l, hl⟩ : ∃ l, s.ts.initialLoc = .ok (some l) := by
    obtain ⟨o, h1, _⟩ := gs.initial
    cases o with
    | none => exact absurd h1 hinit
    | some l => exact ⟨l, h1⟩
  obtain ⟨f1, f2, m0, hm0⟩ := Ref.of_equivalent gs gx hV hin hout hl
  have hio : ∀ a ∈ x.inputs, a ∉ x.outputs := by
    have e := compileWith_content ho hx
    rw [e.1, e.2.1]
    unfold CompComp.compile CompComp.compileWith at hx
    split at hx
    · cases hx
    · rename_i hdis
      exact setDisjoint_iff.1 (by simpa using hdis)
  constructor
  · intro A k1
    obtain ⟨l1, r1, q1, hr1, hc1, ht1, m1, m2⟩ := id A
    obtain ⟨kk, p, ha, hb, _⟩ := getRecipes_two hr1
    obtain ⟨g1, _, ei, eo⟩ := named_component hn (hload n c hn) ha ho hx (by rw [hZ]; exact hok) (by rw [hZ]; omega)
      (fun c hm => by rw [hZ]; exact (hc1.left c hm).1) m1 hm0
    obtain ⟨g2, _, ei', eo'⟩ := same_expression hload he (getRecipes_one hr) hb (by rw [hZ]; omega)
      (fun c hm => by rw [hZ]; exact (hc.comps c hm).1) hs m2
    have f := (g1.compose f2).compose g2
    refine (A.exact hZ hY hload (e := .component n none) trivial he (fun l m hl hm d hd => f.waits hl hm hd) hp k1).2
      (f.refines (fun a h h' => ?_) fun a h h' => ?_)
    · exact hio a (by rw [← ei]; exact h) ((hout a).1 (by rw [← eo']; exact h'))
    · exact hio a ((hin a).1 (by rw [← ei']; exact h')) (by rw [← eo]; exact h)
  · intro A k1
    obtain ⟨l1, r1, q1, hr1, hc1, ht1, m1, m2⟩ := id A
    obtain ⟨kk, p, ha, hb, _⟩ := getRecipes_two hr1
    obtain ⟨_, g1, ei, eo⟩ := named_component hn (hload n c hn) hb ho hx (by rw [hZ]; exact hok) (by rw [hZ]; omega)
      (fun c hm => by rw [hZ]; exact (hc1.right c hm).1) m2 hm0
    obtain ⟨_, g2, ei', eo'⟩ := same_expression hload he (getRecipes_one hr) ha (by rw [hZ]; omega)
      (fun c hm => by rw [hZ]; exact (hc.comps c hm).1) hs m1
    have f := (g2.compose f1).compose g1
    refine (A.exact hZ hY hload (e' := .component n none) he trivial (fun l m hl hm d hd => f.waits hl hm hd) hp k1).2
      (f.refines (fun a h h' => ?_) fun a h h' => ?_)
    · exact hio a ((hin a).1 (by rw [← ei']; exact h)) (by rw [← eo]; exact h')
    · exact hio a (by rw [← ei]; exact h') ((hout a).1 (by rw [← eo']; exact h))

end
end Reveaal

/-! ## A concrete case -/

namespace Reveaal

/-- `A && O` as a component -/
def exSavedS82 (i : Nat) : Component := ⟨"AO", ⟨[], [("x", i)]⟩, [⟨"L0&&L0", some (.le (.var "x") (.int 5)), .initial, "NORMAL"⟩],
  [⟨"E0", "L0&&L0", "L0&&L0", .output, some (.ge (.var "x") (.int 2)), some [⟨"x", .int 0⟩], "out"⟩]⟩

def loadS82 : String → Res Component := fun n => if n = "AO" then .ok (exSavedS82 1) else load80 n

theorem loadS82_numbered (n : String) (c : Component) (h : loadS82 n = .ok c) : c.decls.Numbered := by
  unfold loadS82 at h
  split at h
  · cases h; exact .refl _
  · exact load80_numbered n c h

def bothS82 : SysExpr := .conjunction (.component "A" none) (.component "O" none)

theorem exSavedS82_reducible {i : Nat} (hi : i = 1 ∨ i = 2) : (exSavedS82 i).Reducible 3 ∧ (exSavedS82 i).UpdatesAgree := by
  have kx : IsClock (exSavedS82 i).decls (.var "x") i := .inr ⟨"x", rfl, by rfl⟩
  refine ⟨⟨⟨Component.ok_of_okB ?_, ?_, ?_, ?_, ?_, ?_⟩, ⟨?_, ?_⟩, ?_⟩, ?_⟩
  pick_goal 10
  · intro e he us hus
    rw [List.mem_singleton.1 he] at hus
    cases hus
    intro u hu u' hu' _
    rw [List.mem_singleton.1 hu, List.mem_singleton.1 hu']
  · rcases hi with rfl | rfl <;> decide
  pick_goal 3
  · rcases hi with rfl | rfl <;> decide +kernel
  pick_goal 3
  · rcases hi with rfl | rfl <;> decide +kernel
  pick_goal 3
  · rcases hi with rfl | rfl <;> decide +kernel
  pick_goal 5
  · rcases hi with rfl | rfl <;> decide +kernel
  all_goals (
    intro e he g hg
    rw [List.mem_singleton.1 he] at hg
    cases hg)
  · exact .posConst (.chain (.clock kx)) rfl
  · exact .posConst (.chain (.clock kx)) rfl
  all_goals simp [BoolE.NamesOnly, Arith.NamesOnly]

theorem exSavedS82_tame : (exSavedS82 1).Tame (FedD 2) ∧ (exSavedS82 2).Tame (FedD 2) :=
  ⟨tame80 (by decide) (by decide) (getOk_eq (by decide +kernel)) (by decide +kernel) (by decide +kernel),
    tame80 (by decide) (by decide) (getOk_eq (by decide +kernel)) (by decide +kernel) (by decide +kernel)⟩

theorem compsS82 {c : Component} (h : c ∈ exSavedS82 1 :: exSavedS82 2 :: comps80 2) :
    (c.Reducible 3 ∧ c.UpdatesAgree) ∧ c.Tame (FedD 2) := by
  rcases List.mem_cons.1 h with rfl | h
  · exact ⟨exSavedS82_reducible (.inl rfl), exSavedS82_tame.1⟩
  rcases List.mem_cons.1 h with rfl | h
  · exact ⟨exSavedS82_reducible (.inr rfl), exSavedS82_tame.2⟩
  · exact comps80_all h

theorem asksS82 {e e' : SysExpr} {l r : Recipe} {s t : Sys (FedD 2)} (he : l.quotientClocks = [])
    (hr : getRecipes loadS82 [e, e'] 0 none = .ok ([l, r], 2, none))
    (hc : l.components ++ r.components ⊆ exSavedS82 1 :: exSavedS82 2 :: comps80 2) (hs : l.Means s) (ht : r.Means t) :
    queries80.Asks loadS82 e e' 2 s t := by
  refine ⟨l, r, none, hr, ⟨by omega, ?_, ?_, .inl he, (fun h => by cases h), (fun h => by cases h), fun h => by cases h⟩, ?_,
    hs, ht⟩
  · exact fun c hm => (compsS82 (hc (List.mem_append_left _ hm))).1
  · exact fun c hm => (compsS82 (hc (List.mem_append_right _ hm))).1
  · exact fun c hm => (compsS82 (hc hm)).2

def recS82 : Recipe := .conjunction (.component (exQuick79 1) none) (.component (exSay80 "O" "out") none)
def sysS82 : Sys (FedD 1) := (getOk (recS82.compile (env80 1) 0) (by decide +kernel)).1
def compS82 : CompComp (FedD 1) := getOk (CompComp.compile id (exSavedS82 1) 0) (by decide +kernel)

/-- Non-vacuity: `get-component: A && O save-as AO` is answered with a component, and with it `AO <= A && O` and
`A && O <= AO` are answered with yes. -/
example : queries80.run loadS82 (.getComponent ⟨bothS82, some "AO"⟩) = .ok (.getComponent (exSavedS82 1)) ∧
    queries80.run loadS82 (.refinement (.component "AO" none) bothS82) = .ok (.refinement 2 none) ∧
    queries80.run loadS82 (.refinement bothS82 (.component "AO" none)) = .ok (.refinement 2 none) := by
  have h0 : queries80.run loadS82 (.getComponent ⟨bothS82, some "AO"⟩) = .ok (.getComponent (exSavedS82 1)) :=
    answeredComponent_eq (by decide +kernel)
  have h1 := refinementAnswer_yes (d := 2) (x := queries80.run loadS82 (.refinement (.component "AO" none) bothS82))
    (by decide +kernel)
  have h2 := refinementAnswer_yes (d := 2) (x := queries80.run loadS82 (.refinement bothS82 (.component "AO" none)))
    (by decide +kernel)
  have hinit : sysS82.initialLoc ≠ .ok none := by
    intro h
    have : (match sysS82.initialLoc with | .ok none => true | _ => false) = false := by decide +kernel
    rw [h] at this
    cases this
  have hask : queries80.Askable recS82 1 none := by
    refine ⟨by decide, fun c hc => ?_, (fun h => by cases h), fun h => by cases h⟩
    exact (comps80_all (d := 1) (by simp [recS82, Recipe.components, comps80] at hc ⊢; tauto)).1
  have key := fun (t u : Sys (FedD 2)) => C80_saved_partial dim_fedD queries80 queries80 queries80_fair
    ⟨(plainQueries_saves (Z := FedD) false).saved, (plainQueries_saves (Z := FedD) false).pruned⟩ queries80_fair loadS82
    loadS82_numbered ⟨bothS82, some "AO"⟩ ⟨trivial, trivial⟩ 1 sysS82 recS82 none rfl hask
    (by unfold recS82 Recipe.Readable; decide +kernel) (means80 (getOk_eq (by decide +kernel))) hinit (exSavedS82 1) (.inl h0) 1
    ⟨sysS82, rfl⟩ (Component.ok_of_okB (by decide)) (by decide) id (fun _ => .refl _) 0 compS82 (getOk_eq _)
    (same80 (by decide +kernel)) (same80 (by decide +kernel)) "AO" rfl 2 t u 2 none (fun _ _ h => by cases h)
  have := (key _ _).1 (asksS82 (l := .component (exSavedS82 1) none)
    (r := .conjunction (.component (exQuick79 2) none) (.component (exSay80 "O" "out") none)) rfl rfl (by
      intro c hc; simp [Recipe.components, comps80] at hc ⊢; tauto) (means80 (getOk_eq (by decide +kernel)))
      (means80 (getOk_eq (by decide +kernel)))) h1
  have := (key _ _).2 (asksS82 (r := .component (exSavedS82 2) none)
    (l := .conjunction (.component (exQuick79 1) none) (.component (exSay80 "O" "out") none)) rfl rfl (by
      intro c hc; simp [Recipe.components, comps80] at hc ⊢; tauto) (means80 (getOk_eq (by decide +kernel)))
      (means80 (getOk_eq (by decide +kernel)))) h2
  exact ⟨h0, h1, h2⟩

end Reveaal
