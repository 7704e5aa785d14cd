import Verif.Props.C48Builds

/-!
# C78: pruning a consistent system never crashes
-/

namespace Reveaal
open ZoneLib

section
variable {F : Type} [ZoneLib F]

theorem products_nodup {l r : List (LocTree F)} {ls : List (LocTree F)} {k : CompType} (hl : l.Nodup) (hr : r.Nodup)
    (h : ((l.flatMap fun a => r.map fun b => (a, b)).mapM fun p => LocTree.compose p.1 p.2 k) = .ok ls) : ls.Nodup := by
  have hp : (l.flatMap fun a => r.map fun b => (a, b)).Nodup := hl.product hr
  have key := mapM_ok.1 h
  clear h
  generalize (l.flatMap fun a => r.map fun b => (a, b)) = ps at hp key
  induction key with
  | nil => exact .nil
  | @cons p x ps ls hx hxs ih =>
    rw [List.nodup_cons] at hp ⊢
    refine ⟨fun hm => hp.1 ?_, ih hp.2⟩
    obtain ⟨p', hp', hx'⟩ := forall2_mem_right hxs x hm
    have e1 := compose_parts hx
    have e2 := compose_parts hx'
    have : p = p' := Prod.ext (Except.ok.inj (e1.1.symm.trans e2.1)) (Except.ok.inj (e1.2.1.symm.trans e2.2.1))
    rw [this]
    exact hp'

/-- No location of a system is listed twice. -/
theorem Sys.Accepted.allLocs_nodup {s : Sys F} (hs : s.Accepted) : ∀ {ls : List (LocTree F)}, s.allLocs = .ok ls → ls.Nodup := by
  induction hs with
  | comp hc ho h =>
    rintro ls ⟨⟩
    have hwf := compileWith_wf hc ho h
    refine List.Nodup.of_map LocTree.id ?_
    rw [List.map_map]
    exact (List.map_congr_left (f := LocTree.id ∘ Prod.snd) (g := Prod.fst) hwf.ids) ▸ hwf.keys
  | composition _ _ h ihl ihr =>
    intro ls hls
    obtain ⟨_, rfl⟩ := Sys.newComposition_eq h
    obtain ⟨a, h1, hls⟩ := bind_ok hls
    obtain ⟨b, h2, hls⟩ := bind_ok hls
    exact products_nodup (ihl h1) (ihr h2) hls
  | conjunction _ _ h ihl ihr =>
    intro ls hls
    obtain ⟨_, _, rfl⟩ := Sys.newConjunction_eq h
    obtain ⟨a, h1, hls⟩ := bind_ok hls
    obtain ⟨b, h2, hls⟩ := bind_ok hls
    exact products_nodup (ihl h1) (ihr h2) hls
  | quotient _ _ _ _ h ihl ihr =>
    intro ls hls
    obtain ⟨_, rfl⟩ := Sys.newQuotient_eq h
    obtain ⟨a, h1, hls⟩ := bind_ok hls
    obtain ⟨b, h2, hls⟩ := bind_ok hls
    cases hls
    have hp : (a.flatMap fun x => b.map fun y => (x, y)).Nodup := (ihl h1).product (ihr h2)
    have e : (a.flatMap fun x => b.map fun y => LocTree.merge x y) =
        (a.flatMap fun x => b.map fun y => (x, y)).map fun p => LocTree.merge p.1 p.2 := by
      rw [List.map_flatMap]
      simp only [List.map_map]
      rfl
    rw [e, List.nodup_append]
    refine ⟨hp.map_on ?_, by simp [LocTree.errorLoc, LocTree.universalLoc], ?_⟩
    · rintro ⟨x, y⟩ _ ⟨x', y'⟩ _ he
      unfold LocTree.merge at he
      obtain ⟨_, _, _, rfl, rfl⟩ := LocTree.node.inj he
      rfl
    · intro x hx y hy he
      obtain ⟨p, _, rfl⟩ := List.mem_map.1 hx
      subst he
      simp [LocTree.merge, LocTree.errorLoc, LocTree.universalLoc] at hy

/-- Saving ends well if every clock has a name. -/
theorem save_endsWell {s : Sys F} (hs : s.Accepted) (hd : s.NamesDistinct)
    (hcov : ∀ i, 0 < i → i < dim F → i ∈ (clockMap s.decls).map (·.2)) {ord : ActionOrder F} (ho : ord.For s)
    (name : String) (p : Prop) : EndsWell p fun n => getComponent s ord n name := by
  obtain ⟨N, r, hr, h⟩ := C59_get_component hs ho name
  obtain ⟨locs, h1, h2⟩ := hs.good.all
  refine ⟨N, r, ?_, h⟩
  have e := h (max N locs.length) (le_max_left _ _)
  dsimp only at e
  rw [← e]
  have key : ∃ trees, collectLocations s.ts ord (.reachable (max N locs.length)) = .ok trees ∧ ∀ l ∈ trees, s.IsLoc l := by
    obtain ⟨o, h3, h4⟩ := hs.good.initial
    have h3' : s.ts.initialLoc = .ok o := h3
    unfold collectLocations
    dsimp only
    rw [h3', ok_bind]
    cases o with
    | none => exact ⟨[], rfl, by rintro l ⟨⟩⟩
    | some l0 =>
      obtain ⟨trees, h5, h6, _⟩ := collectReachable_total hs ho (all := locs) (fun l hl => (h2 l).2 hl) (max N locs.length) l0
        [l0] (fun x hx => by rw [List.mem_singleton.1 hx]; exact h4 l0 rfl) (by simp) (h4 l0 rfl) (by simp)
      exact ⟨trees, h5, h6⟩
  obtain ⟨trees, h5, h6⟩ := key
  unfold getComponent
  exact ((combine_ovf hs hd hcov ho h5 h6).bind fun _ _ => OkOrOvf.ok (P := fun _ => True) trivial).noCrash p

/-- **C78** Pruning a system never crashes if the system is consistent: the loop of pruning is not entered, and the
component that is made of the system can be built. -/
theorem C78_prune_system (hfin : FiniteExtrapolation F) {s : Sys F} (hs : s.Accepted) (hn : s.Readable) (hd : s.NamesDistinct)
    (hio : ∀ a ∈ s.inputs, a ∉ s.outputs)
    (hcov : ∀ i, 0 < i → i < dim F → i ∈ (clockMap s.decls).map (·.2))
    (work : Nat → List String → Component → Res Component)
    {order : List (LocId × LocTree F) → List (LocId × LocTree F)} (hord : ∀ l, (order l).Perm l)
    {ord : ActionOrder F} (ho : ord.For s) (checkOrd : List Bool → Orders) (hc : s.FairOrders checkOrd)
    (hcons : ∀ N f, ∃ n, N ≤ n ∧ s.precheck checkOrd n ≠ .ok (some f)) (p : Prop) :
    EndsWell p fun n => pruneSystem (work n) order ord checkOrd n s := by
  unfold pruneSystem
  refine (C59_consistency hfin hs checkOrd hc).endsWell.bind fun o N hN => ?_
  cases o with
  | some f =>
    obtain ⟨n, h1, h2⟩ := hcons N f
    exact absurd (hN n h1) h2
  | none =>
    obtain ⟨locs, h1, h2⟩ := hs.good.all
    have hloc : ∀ l ∈ locs, s.IsLoc l := fun l hl => (h2 l).1 hl
    rcases hr : combineComponents s ord .noPruning with e | c
    · rcases combine_ovf hs hd hcov ho (strategy := .noPruning) (trees := locs) h1 hloc with ⟨c, h3, _⟩ | h3
      · rw [hr] at h3; cases h3
      · rw [hr] at h3
        cases h3
        exact .const (x := .error _) rfl
    · obtain ⟨trees, h4, h5⟩ := combineComponents_spec hr
      have h4' : s.allLocs = .ok trees := h4
      rw [h1] at h4'
      cases h4'
      have hcl : ∀ l ∈ locs, s.ClosedAt l locs := by
        intro l hl a ts ha hts t ht
        obtain ⟨ts', h6, h7⟩ := hs.good.next l a (hloc l hl) ha
        have hts : s.next l a = .ok ts := hts
        rw [hts] at h6
        cases h6
        exact (h2 _).2 (h7 t ht).1
      have hcomp := h5.complete hs hn hd ho hloc (hs.allLocs_nodup h1) hcl
      have hok := h5.ok hs hd ho hloc
      have h6 : OkOrOvf (CompComp.compileWith (F := F) order c s.inputs s.outputs 0) fun _ => True :=
        compileWith_ovf hok hcomp hord hio 0
      have h7 : OkOrOvf (c.locations.mapM fun l => do
          let b ← immediatelyInconsistent F c l
          (.ok (l.id, b) : Res _)) fun _ => True := OkOrOvf.mapM fun l hl => by
        unfold immediatelyInconsistent
        exact ((simple_ovf hok hcomp hl).bind fun _ _ => OkOrOvf.ok (P := fun _ => True) trivial).bind fun _ _ => .ok trivial
      have h8 : ∃ r : Res (CompComp F), OkOrOvf r (fun _ => True) ∧ ∀ n, prune (F := F) (work n) order c s.inputs s.outputs = r := by
        unfold prune
        generalize hfl : (c.locations.mapM fun l => do
            let b ← immediatelyInconsistent F c l
            (.ok (l.id, b) : Res _)) = r at h7
        cases r with
        | error e =>
          refine ⟨.error e, ?_, fun _ => rfl⟩
          rcases h7 with ⟨_, h7, _⟩ | h7
          · cases h7
          · cases h7; exact .inr rfl
        | ok flags =>
          refine ⟨_, h6, fun n => ?_⟩
          rw [ok_bind]
          dsimp only
          rw [h5.no_bad hfl]
          rfl
      obtain ⟨r, h9, h10⟩ := h8
      refine ⟨0, orPanic r >>= fun x => .ok (.comp x),
        ((h9.orPanic).bind fun _ _ => OkOrOvf.ok (P := fun _ => True) trivial).noCrash p, fun n _ => ?_⟩
      dsimp only
      rw [ok_bind, h10 n]

/-- A pruned system is one component, with the clocks of the system. -/
theorem pruned_clocks {s : Sys F} {work : List String → Component → Res Component}
    {order : List (LocId × LocTree F) → List (LocId × LocTree F)} {ord : ActionOrder F} {checkOrd : List Bool → Orders}
    {fuel : Nat} {s' : Sys F} (h : pruneSystem work order ord checkOrd fuel s = .ok s') :
    clockMap s'.decls = clockMap s.decls := by
  obtain ⟨trees, c, x, h2, h3, h4, rfl⟩ := pruneSystem_spec h
  have : x.decls = c.decls := by
    unfold CompComp.compileWith at h4
    split at h4
    · cases h4
    obtain ⟨locs0, _, h4⟩ := bind_ok h4
    obtain ⟨edges, _, h4⟩ := bind_ok h4
    cases h4
    rfl
  show x.decls.clocks = _
  rw [this, h3.decls]

end

variable {Z : Nat → Type} [∀ d, ZoneLib (Z d)]

/-- **C78** (partial) The query that prunes a system of complete components ends, with the component or with an error
message that refuses the system, if the consistency query about the same system does not find it inconsistent
(`C78_violated_prune`); the only crash is an overflow of constants.  No action of the system may be an input and an
output, and location names may not contain operators or brackets if there is more than one component. -/
theorem C78_prune_partial (hZ : ∀ d, dim (Z d) = d + 1) (hfin : ∀ d, FiniteExtrapolation (Z d)) (X : QueryEnv Z)
    (hX : X.Fair) (hch : X.FairChecks) (hX' : X.FairSaves)
    (load : String → Res Component) (hload : ∀ n c, load n = .ok c → c.decls.Numbered) (e : SaveExpr)
    (r : Recipe) (d : Nat) (q : Option Nat) (hr : getRecipes load [e.system] 0 none = .ok ([r], d, q))
    (hc : ∀ n, (X.withFuel n).Askable r d q) (hcc : ∀ c ∈ r.components, c.Complete) (hn : r.PlainNames) (hrd : r.Readable)
    (hst : X.reduce = true → d ≠ 0 → r.Starts) (hr1 : r.FairEnv (X.analysed d))
    (henv : ∀ n r' d', (X.withFuel n).reduceOne r d q = .ok (r', d') → r'.FairEnv (X.compiled d'))
    (hio : ∀ n d' s', (X.withFuel n).system load e.system = .ok ⟨d', s'⟩ → ∀ a ∈ s'.inputs, a ∉ s'.outputs)
    (hcons : ∀ n d' f, (X.withFuel n).run load (.consistency e.system) ≠ .ok (.consistency d' (some f))) :
    EndsWell (X.Refuses r d q) fun n => (X.withFuel n).run load (.prune e) := by
  obtain ⟨hnum, hqr⟩ := C60_numbered hload hr
  obtain ⟨hcov, hrq⟩ := getRecipes_covers hload hr
  refine (QueryEnv.system_endsWell hZ hfin X hX load hload e.system r d q hr hc hcc hst hr1 henv).bind fun x N hxN => ?_
  obtain ⟨d', s'⟩ := x
  have hx := hxN N le_rfl
  have hio' := hio N d' s' hx
  obtain ⟨⟨r0, d1, q1⟩, ha, hr⟩ := bind_ok hr
  cases hr
  unfold QueryEnv.system at hx
  rw [ha, ok_bind] at hx
  dsimp only at hx
  unfold QueryEnv.systemOf at hx
  obtain ⟨⟨r', d2⟩, h1, hx⟩ := bind_ok hx
  obtain ⟨⟨s2, j⟩, h2, hx⟩ := bind_ok hx
  cases hx
  obtain ⟨ρ, a⟩ := (X.withFuel N).reduceOne_form hZ (hX.compiled d).1 hnum (hc N).small (hc N).comps hqr (hc N).harmless
    (hc N).merge h1
  have hcov' := (X.withFuel N).reduceOne_covers hZ (hX.compiled d).1 hnum hqr hrq (hc N) h1
  have hperm : ((X.withFuel N).compiled d').Perm := (hX.compiled d').2.2.1
  rw [← hZ, ← hZ] at a
  have hacc := Recipe.compile_accepted hperm a.ok' h2
  have hv : s'.Savable := by
    obtain ⟨rem, g, k, q', rfl, _⟩ := a.form
    refine Recipe.compile_savable hperm a.ok' hrd.reshape (fun c' hc' => ?_) h2
    rw [Recipe.reshape_components] at hc'
    obtain ⟨c0, hc0, rfl⟩ := List.mem_map.1 hc'
    exact ((hc N).comps c0 hc0).1.savable.reduced rem g
  have hpl : r'.PlainNames := by
    obtain ⟨rem, g, k, q', rfl, h', _⟩ := a.form
    exact hn.reshape (fun c hm => ((hc N).comps c hm).1.savable.clocks) rem g k
  have hall : ∀ i, 0 < i → i < dim (Z d') → i ∈ (clockMap s'.decls).map (·.2) := by
    intro i h0 hi
    obtain ⟨dd, hd', hm⟩ := s'.decls_clocks.2 (hcov'.clocks h2 h0 (by rw [← hZ]; exact hi))
    obtain ⟨p, hp, rfl⟩ := List.mem_map.1 hm
    obtain ⟨n, hn⟩ := (C31_names_partial _ hv.clocks (hpl.decls h2)).every dd hd' p.1 p.2 hp
    exact List.mem_map.2 ⟨_, hn, rfl⟩
  refine EndsWell.bind (f := fun n => (X.withFuel n).componentOf true ⟨d', s'⟩ e.name) ?_ fun _ _ _ => .const trivial
  unfold QueryEnv.componentOf
  dsimp only
  have mono : ∀ M f, ∃ n, M ≤ n ∧ s'.precheck (X.checks d' s') n ≠ .ok (some f) := by
    intro M f
    refine ⟨max M N, le_max_left _ _, fun h => hcons (max M N) d' f ?_⟩
    unfold QueryEnv.run
    dsimp only
    have h3 := hxN (max M N) (le_max_right _ _)
    have h4 : s'.precheck ((X.withFuel (max M N)).checks d' s') (X.withFuel (max M N)).fuel = .ok (some f) := h
    rw [h3, ok_bind]
    dsimp only
    rw [h4]
    rfl
  refine EndsWell.bind (f := fun n => pruneSystem (pruneWork (X.predt d') n) (X.pruned d') (X.saved d' s') (X.checks d' s') n s')
    (C78_prune_system (hfin d') hacc hv.readable hv.clocks hio' hall _ (hX'.pruned d') (hX'.saved d' s') _ (hch d' s').1 mono _)
    fun t M hM => ?_
  obtain ⟨b, v⟩ := pruned_savable hacc hv (hX'.pruned d') (hX'.saved d' s') (hM M le_rfl)
  exact save_endsWell b v.clocks (by rw [pruned_clocks (hM M le_rfl)]; exact hall) (hX'.saved d' t) _ _

/-- **C64** The component that a `get-component` or `prune` query answers with is complete and can be built again, over the
clocks that clock reduction leaves, unless a constant overflows.  Together with `C64_component_partial`: what is built
behaves like the system the query names. -/
theorem C64_component_builds_partial (hZ : ∀ d, dim (Z d) = d + 1) (X : QueryEnv Z) (hX : X.Fair) (hX' : X.FairSaves)
    (load : String → Res Component) (hload : ∀ n c, load n = .ok c → c.decls.Numbered) (e : SaveExpr) (r : Recipe) (d : Nat)
    (q : Option Nat) (hr : getRecipes load [e.system] 0 none = .ok ([r], d, q)) (hc : X.Askable r d q) (hn : r.Readable)
    (c : Component)
    (h : X.run load (.getComponent e) = .ok (.getComponent c) ∨ X.run load (.prune e) = .ok (.getComponent c))
    (d' : Nat) (s' : Sys (Z d')) (hd : X.system load e.system = .ok ⟨d', s'⟩) (hio : ∀ a ∈ s'.inputs, a ∉ s'.outputs)
    (order : List (LocId × LocTree (Z d')) → List (LocId × LocTree (Z d'))) (ho : ∀ l, (order l).Perm l) (i : Nat) :
    c.Complete ∧ ((∃ x : CompComp (Z d'), CompComp.compile order c i = .ok x) ∨
      CompComp.compile (F := Z d') order c i = .error (.panic "arithmetic overflow")) := by
  have key : ∃ b, X.componentOf b ⟨d', s'⟩ e.name = .ok c := by
    rcases h with h | h
    all_goals
      unfold QueryEnv.run at h
      dsimp only at h
      rw [hd, ok_bind] at h
      obtain ⟨c', h2, h⟩ := bind_ok h
      cases h
      exact ⟨_, h2⟩
  obtain ⟨b, h2⟩ := key
  obtain ⟨r', ρ, j, a, h3⟩ := X.system_form hZ hX hload hr hc hd
  have hacc := Recipe.compile_accepted (hX.compiled d').2.2.1 a.ok' h3
  have hv : s'.Savable := by
    obtain ⟨rem, g, k, q', rfl, _⟩ := a.form
    refine Recipe.compile_savable (hX.compiled d').2.2.1 a.ok' hn.reshape (fun c' hc' => ?_) h3
    rw [Recipe.reshape_components] at hc'
    obtain ⟨c0, hc0, rfl⟩ := List.mem_map.1 hc'
    exact (hc.comps c0 hc0).1.savable.reduced rem g
  unfold QueryEnv.componentOf at h2
  dsimp only at h2
  cases b with
  | false => exact C48_builds_partial hacc hv.readable hv.clocks hio (hX'.saved d' s') h2 ho i
  | true =>
    obtain ⟨t, h4, h2⟩ := bind_ok h2
    obtain ⟨ta, tv⟩ := pruned_savable hacc hv (hX'.pruned d') (hX'.saved d' s') h4
    refine C48_builds_partial ta tv.readable tv.clocks ?_ (hX'.saved d' t) h2 ho i
    obtain ⟨_, _, x, _, _, h5, rfl⟩ := pruneSystem_spec h4
    obtain ⟨xi, xo, _⟩ := compileWith_content (hX'.pruned d') h5
    intro a' ha' hb'
    exact hio a' (xi ▸ ha') (xo ▸ hb')

/-! ## A concrete case -/

def sysFinClient : Sys (FinD 2) := (getOk ((Recipe.component exClient none).compile (envK (FinD 2)) 0) (by decide +kernel)).1

theorem sysFinClient_eq (n : Nat) :
    ((plainQueries (Z := FinD) false).withFuel n).system loadTwo (.component "A" none) = .ok ⟨2, sysFinClient⟩ := rfl

/-- Non-vacuity: the query that prunes `A`, which is consistent. -/
example : EndsWell ((plainQueries (Z := FinD) false).Refuses (.component exClient none) 2 none) fun n =>
      ((plainQueries (Z := FinD) false).withFuel n).run loadTwo (.prune ⟨.component "A" none, some "C"⟩) := by
  refine C78_prune_partial (fun _ => rfl) (fun d => closureLib_finite (finDBase d)) _ (plainQueries_fair _)
    (fun _ s => ⟨ownOrders_all s, ownOrders_all s⟩) (plainQueries_saves _) loadTwo loadTwo_numbered _
    (.component exClient none) 2 none rfl (fun n => ⟨by decide, ?_, (fun h => by cases h), fun h => by cases h⟩) ?_ ?_ trivial
    (fun h => by cases h) trivial ?_ ?_ ?_
  · intro c hc
    rw [List.mem_singleton.1 hc]
    exact ⟨exClient_reducible3, exClient_agree⟩
  · intro c hc
    rw [List.mem_singleton.1 hc]
    exact exClient_complete
  · have : ∀ c ∈ (Recipe.component exClient none).components, ∀ p ∈ c.decls.clocks,
        (p.1.toList.getLast?.all fun c => !c.isDigit) = true := by decide +kernel
    exact fun c hc p hp => NoDigitEnd.of_bool (this c hc p hp)
  · rintro n r' d' ⟨⟩
    exact trivial
  · intro n d' s' h
    rw [show ((plainQueries (Z := FinD) false).withFuel n).system loadTwo (.component "A" none) = _ from sysFinClient_eq n] at h
    cases h
    decide +kernel
  · intro n d' f h
    unfold QueryEnv.run at h
    dsimp only at h
    rw [sysFinClient_eq n, ok_bind] at h
    dsimp only at h
    obtain ⟨o, h1, h⟩ := bind_ok h
    cases h
    have h2 : (match sysFinClient.precheck (ownOrders sysFinClient) 20 with | .ok none => true | _ => false) = true := by
      decide +kernel
    split at h2
    · next h3 => cases C59_steps_consistency _ _ h1 h3
    · cases h2

/-- Non-vacuity: the component that `A && B` is saved as can be built over the three clocks of the two. -/
example : exBothAB.Complete ∧ ((∃ x : CompComp (FedD 3), CompComp.compile id exBothAB 0 = .ok x) ∨
    CompComp.compile (F := FedD 3) id exBothAB 0 = .error (.panic "arithmetic overflow")) :=
  C64_component_builds_partial dim_fedD outQueries outQueries_fair ⟨fun _ _ _ => ⟨.refl _, .refl _⟩, fun _ _ => .refl _⟩
    loadTwo loadTwo_numbered ⟨bothAB, some "AB"⟩ recAB 3 none rfl recAB_askable (by unfold recAB Recipe.Readable; decide +kernel) exBothAB
    (.inl (answeredComponent_eq (by decide +kernel))) 3 sysBothAB rfl (by decide +kernel) id (fun _ => .refl _) 0

end Reveaal
