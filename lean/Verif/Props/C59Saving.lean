import Verif.Props.C59
import Verif.Props.C29

/-!
# C59: saving and pruning end

The other queries: `get-component` and `prune`.
-/

namespace Reveaal
open ZoneLib
variable {F : Type} [ZoneLib F]

/-! ## Printing is not a search -/

theorem NotCut.mapM_mem {α β : Type} {f : α → Res β} : ∀ l : List α, (∀ a ∈ l, NotCut (f a)) → NotCut (l.mapM f)
  | [], _ => by rw [List.mapM_nil]; exact .ok _
  | a :: l, hf => by
    rw [List.mapM_cons]
    exact (hf a (by simp)).bind fun _ => (NotCut.mapM_mem l fun b hb => hf b (.tail _ hb)).bind fun _ => .ok _

theorem varFromNaming_notCut (naming : List (Nat × String)) (i : Nat) : NotCut (varFromNaming naming i) :=
  (unwrap_notCut _).bind fun _ => .ok _

theorem fromConstraint_notCut (naming : List (Nat × String)) (c : Constr) : NotCut (fromConstraint naming c) := by
  unfold fromConstraint
  repeat' (first
    | exact NotCut.ok _ | exact NotCut.panic _ | exact varFromNaming_notCut _ _ | exact chk_notCut _ | split
    | (refine NotCut.bind ?_ fun _ => ?_))

theorem fromConjLoop_notCut (naming : List (Nat × String)) : ∀ (cs : List Constr) (acc : Option BoolE),
    NotCut (fromConjLoop naming acc cs)
  | [], _ => .ok _
  | c :: cs, acc => by
    unfold fromConjLoop
    refine (fromConstraint_notCut _ _).bind fun e => ?_
    cases acc <;> exact fromConjLoop_notCut naming cs _

theorem fromConjunction_notCut (naming : List (Nat × String)) (c : Conj) : NotCut (fromConjunction naming c) := by
  unfold fromConjunction
  split
  · exact .ok _
  · exact (fromConstraint_notCut _ _).bind fun _ => .ok _
  · exact fromConjLoop_notCut _ _ _

theorem fromDisjLoop_notCut (naming : List (Nat × String)) : ∀ (cs : List Conj) (acc : Option BoolE),
    NotCut (fromDisjLoop naming acc cs)
  | [], _ => .ok _
  | c :: cs, acc => by
    unfold fromDisjLoop
    refine (fromConjunction_notCut _ _).bind fun e => ?_
    cases e with
    | none => exact .ok _
    | some e => cases acc <;> exact fromDisjLoop_notCut naming cs _

theorem fromDisjunction_notCut (d : Disj) (naming : List (String × Nat)) : NotCut (Reveaal.fromDisjunction d naming) := by
  unfold Reveaal.fromDisjunction
  split
  · exact .ok _
  · exact fromConjunction_notCut _ _
  · exact fromDisjLoop_notCut _ _ _

theorem saveLocation_notCut (naming : List (String × Nat)) (l : LocTree F) : NotCut (saveLocation naming l) := by
  unfold saveLocation
  cases l.inv with
  | none => exact .ok _
  | some z => exact (fromDisjunction_notCut _ _).bind fun _ => .ok _

theorem saveEdge_notCut (naming : List (String × Nat)) (l : LocTree F) (sync : SyncType) (a : String)
    (t : Transition F) : NotCut (saveEdge naming l sync a t) := by
  unfold saveEdge Transition.renamedGuard
  refine (fromDisjunction_notCut _ _).bind fun _ => ?_
  split
  · exact .ok _
  · refine NotCut.bind ?_ fun _ => .ok _
    unfold Transition.renamedUpdates
    refine (NotCut.mapM (fun u => ?_) _).bind fun _ => .ok _
    unfold CUpdate.asUpdate
    exact (unwrap_notCut _).bind fun _ => .ok _

/-- Whatever locations are written down, writing them ends. -/
theorem combine_notCut {s : Sys F} (hs : s.Accepted) {ord : ActionOrder F} (ho : ord.For s)
    {strategy : PruningStrategy} {trees : List (LocTree F)} (ht : collectLocations s.ts ord strategy = .ok trees)
    (hloc : ∀ l ∈ trees, s.IsLoc l) : NotCut (combineComponents s ord strategy) := by
  have edge : ∀ l, s.IsLoc l → ∀ (sync : SyncType) (acts : List String), (∀ a ∈ acts, s.hasAction a = true) →
      NotCut (saveEdgesOf s.ts (clockMap s.decls) l sync acts) := by
    intro l hl sync acts hacts
    unfold saveEdgesOf
    refine (NotCut.mapM_mem _ fun a ha => ?_).bind fun _ => .ok _
    obtain ⟨trans, h1, h2⟩ := hs.good.next l a hl (hacts a ha)
    have h1' : s.ts.next l a = .ok trans := h1
    rw [h1', ok_bind]
    exact (NotCut.mapM (fun t => saveEdge_notCut _ _ _ _ _) _).bind fun _ => .ok _
  unfold combineComponents
  dsimp only
  rw [ht, ok_bind]
  refine (NotCut.mapM_mem _ fun l hl => ?_).bind fun _ =>
    (NotCut.mapM (fun l => saveLocation_notCut _ _) _).bind fun _ => .ok _
  unfold saveEdges
  refine (edge l (hloc l hl) _ _ fun a ha => ?_).bind fun _ => (edge l (hloc l hl) _ _ fun a ha => ?_).bind fun _ => .ok _
  · exact ho.mem.1 (List.mem_append_left _ ha)
  · exact ho.mem.1 (List.mem_append_right _ ha)

/-! ## Saving -/

theorem foldlM_below {α β : Type} {f g : β → α → Res β} (h : ∀ b a, Below (f b a) (g b a)) : ∀ (l : List α) (b : β),
    Below (l.foldlM f b) (l.foldlM g b)
  | [], b => by rw [List.foldlM_nil, List.foldlM_nil]; exact .refl _
  | a :: l, b => by
    rw [List.foldlM_cons, List.foldlM_cons]
    exact (h b a).bind fun b => foldlM_below h l b

theorem collectReachable_mono (ts : TS F) (ord : ActionOrder F) : ∀ (n : Nat) (l : LocTree F) (locs : List (LocTree F)),
    Below (collectReachable ts ord n l locs) (collectReachable ts ord (n + 1) l locs)
  | 0, _, _ => .cut _
  | n + 1, l, locs => by
    rw [collectReachable, collectReachable]
    refine foldlM_below (fun c a => (Below.refl _).bind fun tr => foldlM_below (fun c t => ?_) _ _) _ _
    split
    · exact .refl _
    · exact collectReachable_mono ts ord n _ _

theorem getComponent_mono (s : Sys F) (ord : ActionOrder F) (name : String) (n : Nat) :
    Below (getComponent s ord n name) (getComponent s ord (n + 1) name) := by
  unfold getComponent combineComponents
  refine Below.bind (Below.bind ?_ fun _ => .refl _) fun _ => .refl _
  unfold collectLocations
  refine (Below.refl _).bind fun o => ?_
  cases o with
  | none => exact .refl _
  | some l => exact collectReachable_mono _ _ _ _ _

/-- **C59** The query that saves a system as a component ends, for every accepted system and every order of actions.
No assumption on the zones is needed. -/
theorem C59_get_component {s : Sys F} (hs : s.Accepted) {ord : ActionOrder F} (ho : ord.For s) (name : String) :
    Terminates fun n => getComponent s ord n name := by
  obtain ⟨locs, h1, h2⟩ := hs.good.all
  suffices h : ∃ N, NotCut (getComponent s ord N name) by
    obtain ⟨N, h⟩ := h
    exact ⟨N, _, h, fun n hn => settled (getComponent_mono s ord name) h n hn⟩
  refine ⟨locs.length, ?_⟩
  have key : ∃ trees, collectLocations s.ts ord (.reachable locs.length) = .ok trees ∧ ∀ l ∈ trees, s.IsLoc l := by
    obtain ⟨o, h3, h4⟩ := hs.good.initial
    have h3' : s.ts.initialLoc = .ok o := h3
    unfold collectLocations
    dsimp only
    rw [h3', ok_bind]
    cases o with
    | none => exact ⟨[], rfl, by rintro l ⟨⟩⟩
    | some l0 =>
      obtain ⟨trees, h5, h6, _⟩ := collectReachable_total hs ho (all := locs) (fun l hl => (h2 l).2 hl) locs.length l0 [l0]
        (fun x hx => by rw [List.mem_singleton.1 hx]; exact h4 l0 rfl) (by simp) (h4 l0 rfl) (by simp)
      exact ⟨trees, h5, h6⟩
  obtain ⟨trees, h5, h6⟩ := key
  unfold getComponent
  exact (combine_notCut hs ho h5 h6).bind fun _ => .ok _

/-! ## Pruning -/

theorem compileWith_notCut (order : List (LocId × LocTree F) → List (LocId × LocTree F)) (c : Component)
    (ins outs : List String) (id : Nat) : NotCut (CompComp.compileWith order c ins outs id) := by
  unfold CompComp.compileWith
  split
  · exact .err _
  · refine NotCut.bind ?_ fun _ => (buildEdges_notCut _ _ _).bind fun _ => .ok _
    unfold CompComp.buildLocations
    exact (NotCut.mapM (simple_notCut _) _).bind fun _ => .ok _

/-- **C59** The query that prunes a system ends, for every accepted system.  What the loop of pruning does, and whether
it would end, does not matter: it is never entered, because no location of a saved component is inconsistent (`C29`). -/
theorem C59_prune (hfin : FiniteExtrapolation F) {s : Sys F} (hs : s.Accepted)
    (work : Nat → List String → Component → Res Component)
    (order : List (LocId × LocTree F) → List (LocId × LocTree F)) {ord : ActionOrder F} (ho : ord.For s)
    (checkOrd : List Bool → Orders) (hc : s.FairOrders checkOrd) :
    Terminates fun n => pruneSystem (work n) order ord checkOrd n s := by
  obtain ⟨locs, h1, h2⟩ := hs.good.all
  have key : ∀ w : Nat → List String → Component → Res Component, ∃ r : Res (Sys F), NotCut r ∧ ∀ n, (do
      let c ← combineComponents s ord .noPruning
      let x ← orPanic (prune (w n) order c s.inputs s.outputs)
      .ok (.comp x)) = r := by
    intro w
    have h3 := combine_notCut hs ho (strategy := .noPruning) (trees := locs) h1 fun l hl => (h2 l).1 hl
    generalize hr : combineComponents s ord .noPruning = r at h3
    cases r with
    | error e => exact ⟨.error e, fun h => h3 (by cases h; rfl), fun _ => rfl⟩
    | ok c =>
      obtain ⟨trees, h4, h5⟩ := combineComponents_spec hr
      have h6 : ∃ r, NotCut r ∧ ∀ n, prune (F := F) (w n) order c s.inputs s.outputs = r := by
        have h7 : NotCut (c.locations.mapM fun l => do
            let b ← immediatelyInconsistent F c l
            .ok (l.id, b)) := NotCut.mapM (fun l => by
          unfold immediatelyInconsistent
          exact ((simple_notCut _ _).bind fun _ => .ok _).bind fun _ => .ok _) _
        unfold prune
        generalize hfl : (c.locations.mapM fun l => do
            let b ← immediatelyInconsistent F c l
            .ok (l.id, b)) = r at h7
        cases r with
        | error e => exact ⟨.error e, fun h => h7 (by cases h; rfl), fun _ => rfl⟩
        | ok flags =>
          refine ⟨CompComp.compileWith order c s.inputs s.outputs 0, compileWith_notCut _ _ _ _ _, fun n => ?_⟩
          rw [ok_bind]
          dsimp only
          rw [h5.no_bad hfl]
          rfl
      obtain ⟨r, h7, h8⟩ := h6
      refine ⟨orPanic r >>= fun x => .ok (.comp x), (orPanic_notCut h7).bind fun _ => .ok _, fun n => ?_⟩
      rw [ok_bind, h8 n]
  unfold pruneSystem
  refine Terminates.bind (C59_consistency hfin hs checkOrd hc).terminates fun o _ _ => ?_
  cases o with
  | some f => exact .const (.panic _)
  | none =>
    obtain ⟨r, h3, h4⟩ := key work
    exact ⟨0, r, h3, fun n _ => h4 n⟩

/-- Saving and pruning the machine end, the second whatever the loop does, even if it never ended. -/
example : (Terminates fun n => getComponent finA (plainActs finA) n "Copy") ∧
    Terminates fun n => pruneSystem (fun _ _ => .error .fuel) id (plainActs finA) (finOrders ["go"] ["out"]) n finA :=
  ⟨C59_get_component finA_accepted (plainActs_for _) _,
   C59_prune finFed_finite finA_accepted (fun _ _ _ => .error .fuel) id (plainActs_for _) _ finA_fair⟩

/-- They end with a component and with a system. -/
example : (match getComponent finA (plainActs finA) 20 "Copy" with | .ok _ => true | _ => false) = true ∧
    (match pruneSystem (fun _ _ => .error .fuel) id (plainActs finA) (finOrders ["go"] ["out"]) 20 finA with
      | .ok _ => true | _ => false) = true := by
  constructor <;> decide +kernel

/-- Too few steps are not enough to save: the search is a real one. -/
example : (match getComponent finA (plainActs finA) 1 "Copy" with | .error .fuel => true | _ => false) = true := by
  decide +kernel

end Reveaal
