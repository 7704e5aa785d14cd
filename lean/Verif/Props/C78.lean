import Verif.Spec.Build
import Verif.Props.C01
import Verif.Props.C08
import Verif.Props.C64

/-!
# C78: building a system and answering a query never crash
-/

namespace Reveaal
open ZoneLib
variable {F : Type} [ZoneLib F]

theorem OkOrOvf.orPanic {α : Type} {r : Res α} {P : α → Prop} (h : OkOrOvf r P) : OkOrOvf (orPanic r) P := by
  rcases h with ⟨a, rfl, h⟩ | rfl
  · exact .inl ⟨a, rfl, h⟩
  · exact .inr rfl

theorem OkOrOvf.noCrash {α : Type} {r : Res α} {P : α → Prop} (h : OkOrOvf r P) (q : Prop) : NoCrash q r := by
  rcases h with ⟨a, rfl, h⟩ | rfl
  · trivial
  · rfl

theorem OkOrOvf.mapM {α β : Type} {f : α → Res β} : ∀ {l : List α}, (∀ a ∈ l, OkOrOvf (f a) fun _ => True) →
    OkOrOvf (l.mapM f) fun _ => True
  | [], _ => by rw [List.mapM_nil]; exact .ok trivial
  | a :: l, h => by
    rw [List.mapM_cons]
    exact (h a (.head _)).bind fun _ _ => (OkOrOvf.mapM fun b hb => h b (.tail _ hb)).bind fun _ _ => .ok trivial

theorem Component.Ok.inDim {c : Component} {n : Nat} (hok : c.Ok n) {g : BoolE}
    (h : g.ClocksIn fun i => i ∈ c.decls.clocks.map (·.2)) : g.InDim n := by
  refine BoolE.ClocksIn.mono ?_ h
  intro i hi
  obtain ⟨q, hq, rfl⟩ := List.mem_map.1 hi
  exact hok.decls q hq

theorem simple_ovf {c : Component} (hok : c.Ok (dim F)) (hc : c.Complete) {l : Location} (hl : l ∈ c.locations) :
    OkOrOvf (LocTree.simple (F := F) c.decls l) fun _ => True := by
  refine OkOrOvf.bind (P := fun _ => True) ?_ fun _ _ => .ok trivial
  unfold Location.compileInv
  cases h : l.invariant with
  | none => exact .ok trivial
  | some g =>
    exact (OkOrOvf.mono (C01_guard_exact_partial c.decls hok.decls g (hok.inDim (hok.invs l hl g h))
      (hc.invs l hl g h) univ) fun _ _ => trivial).orPanic.bind fun _ _ => .ok trivial

theorem locationByName_total {c : Component} (hc : c.Complete) {n : String} (hn : n ∈ c.locations.map (·.id)) :
    ∃ l ∈ c.locations, c.locationByName n = .ok l := by
  obtain ⟨l, hl, rfl⟩ := List.mem_map.1 hn
  refine ⟨l, hl, ?_⟩
  have key : ∀ ls : List Location, (ls.map (·.id)).Nodup → l ∈ ls → ls.filter (fun x => x.id = l.id) = [l] := by
    intro ls
    induction ls with
    | nil => intro _ h; cases h
    | cons a ls ih =>
      intro hnd hm
      rw [List.map_cons, List.nodup_cons] at hnd
      rcases List.mem_cons.1 hm with rfl | hm
      · rw [List.filter_cons_of_pos (by simp), List.filter_eq_nil_iff.2]
        intro x hx hxl
        exact hnd.1 (List.mem_map.2 ⟨x, hx, of_decide_eq_true hxl⟩)
      · rw [List.filter_cons_of_neg, ih hnd.2 hm]
        intro h
        exact hnd.1 (List.mem_map.2 ⟨l, hm, (of_decide_eq_true h).symm⟩)
  unfold Component.locationByName
  rw [key _ hc.ids hl]

theorem clockIndex_total {d : Decls} {n : String} (h : n ∈ d.clocks.map (·.1)) : ∃ i, d.clockIndex n = some i := by
  unfold Decls.clockIndex
  cases e : d.clocks.lookup n with
  | some i => exact ⟨i, rfl⟩
  | none =>
    exfalso
    obtain ⟨p, hp, rfl⟩ := List.mem_map.1 h
    rw [List.lookup_eq_none_iff] at e
    simpa using e p hp

theorem fromEdge_ovf {c : Component} (hok : c.Ok (dim F)) (hc : c.Complete) {e : Edge} (he : e ∈ c.edges) :
    OkOrOvf (Transition.fromEdge (F := F) c e) fun _ => True := by
  obtain ⟨l, hl, h1⟩ := locationByName_total hc (hc.ends e he).2
  unfold Transition.fromEdge
  rw [h1, ok_bind]
  refine (simple_ovf hok hc hl).bind fun _ _ => OkOrOvf.bind (P := fun _ => True) ?_ fun _ _ =>
    OkOrOvf.bind (P := fun _ => True) ?_ fun _ _ => .ok trivial
  · unfold Edge.compileUpdates
    cases h : e.update with
    | none => exact .ok trivial
    | some us =>
      refine OkOrOvf.mapM fun u hu => ?_
      obtain ⟨⟨v, hv⟩, hn⟩ := hc.updates e he us h u hu
      obtain ⟨i, hi⟩ := clockIndex_total hn
      unfold CUpdate.compile
      rw [hv]
      dsimp only
      rw [hi]
      exact .ok trivial
  · unfold Edge.applyGuard
    cases h : e.guard with
    | none => exact .ok trivial
    | some g =>
      exact (OkOrOvf.mono (C01_guard_exact_partial c.decls hok.decls g (hok.inDim (hok.guards e he g h))
        (hc.guards e he g h) univ) fun _ _ => trivial).orPanic

omit [ZoneLib F] in
theorem pushEdge_total {id : LocId} {x : String × Transition F} : ∀ {m : List (LocId × List (String × Transition F))},
    id ∈ m.map (·.1) → ∃ m', CompComp.pushEdge id x m = .ok m'
  | [], h => by cases h
  | (k, es) :: m, h => by
    unfold CompComp.pushEdge
    by_cases hk : k = id
    · rw [if_pos hk]; exact ⟨_, rfl⟩
    · rw [if_neg hk]
      obtain ⟨m', hm⟩ := pushEdge_total (x := x) (m := m) ((List.mem_cons.1 h).resolve_left fun h => hk h.symm)
      rw [hm]
      exact ⟨_, rfl⟩

theorem buildEdges_ovf {c : Component} (hok : c.Ok (dim F)) (hc : c.Complete) : ∀ {es : List Edge}
    {m : List (LocId × List (String × Transition F))}, (∀ e ∈ es, e ∈ c.edges) →
    (∀ l ∈ c.locations, LocId.simple l.id ∈ m.map (·.1)) → OkOrOvf (CompComp.buildEdges c es m) fun _ => True
  | [], m, _, _ => .ok trivial
  | e :: es, m, he, hm => by
    unfold CompComp.buildEdges
    refine (fromEdge_ovf hok hc (he e (.head _))).bind fun t _ => ?_
    obtain ⟨l, hl, hs⟩ := List.mem_map.1 (hc.ends e (he e (.head _))).1
    obtain ⟨m', hm'⟩ := pushEdge_total (x := (e.action, t)) (hs ▸ hm l hl)
    rw [hm', ok_bind]
    refine buildEdges_ovf hok hc (fun e h => he e (.tail _ h)) fun l hl => ?_
    rw [(pushEdge_spec hm').1]
    exact hm l hl

/-- **C78** Building a complete component succeeds, unless an action is both an input and an output of it; then it is
refused with an error message.  The only crash is an overflow of constants in a guard or an invariant. -/
theorem C78_component {c : Component} (hok : c.Ok (dim F)) (hc : c.Complete)
    {order : List (LocId × LocTree F) → List (LocId × LocTree F)} (ho : ∀ l, (order l).Perm l) (id : Nat) :
    NoCrash (∃ e ∈ c.edges, ∃ e' ∈ c.edges, e.sync = .input ∧ e'.sync = .output ∧ e.action = e'.action ∧ e.action ≠ "*")
      (CompComp.compile (F := F) order c id) := by
  unfold CompComp.compile CompComp.compileWith
  by_cases hd : setDisjoint (c.specificActions .input) (c.specificActions .output) = true
  · rw [hd, if_neg (by simp)]
    refine OkOrOvf.noCrash (P := fun _ => True) ?_ _
    unfold CompComp.buildLocations
    simp only [bind_assoc]
    cases h : c.locations.mapM (LocTree.simple (F := F) c.decls) with
    | error e =>
      rcases OkOrOvf.mapM (f := LocTree.simple (F := F) c.decls) (l := c.locations)
        (fun l hl => simple_ovf hok hc hl) with ⟨a, h', _⟩ | h'
      · rw [h] at h'; cases h'
      · rw [h] at h'; cases h'; exact .inr rfl
    | ok trees =>
      have hb : CompComp.buildLocations c.decls c.locations = .ok (trees.foldl (fun m t => hmInsert t.id t m) []) := by
        unfold CompComp.buildLocations; rw [h]; rfl
      obtain ⟨_, _, b3⟩ := buildLocations_spec hb
      rw [ok_bind, ok_bind]
      refine (buildEdges_ovf hok hc (fun _ h => h) fun l hl => ?_).bind fun _ _ => .ok trivial
      rw [List.map_map]
      exact ((ho _).map Prod.fst).mem_iff.2 (b3 l hl)
  · rw [Bool.not_eq_true] at hd
    rw [hd, if_pos (by simp)]
    have : ¬ ∀ a ∈ c.specificActions .input, a ∉ c.specificActions .output := by
      intro h; rw [setDisjoint_iff.2 h] at hd; cases hd
    push Not at this
    obtain ⟨a, h1, h2⟩ := this
    unfold Component.specificActions at h1 h2
    rw [mem_mkSet, List.mem_map] at h1 h2
    obtain ⟨e, he, rfl⟩ := h1
    obtain ⟨e', he', ha⟩ := h2
    simp only [List.mem_filter, Bool.and_eq_true, decide_eq_true_eq] at he he'
    exact ⟨e, he.1, e', he'.1, he.2.1, he'.2.1, ha.symm, he.2.2⟩

/-! ## Systems -/

theorem NoCrash.mono {α : Type} {p q : Prop} {x : Res α} (h : NoCrash p x) (hpq : p → q) : NoCrash q x := by
  match x, h with
  | .ok _, _ => trivial
  | .error (.err _), h => exact hpq h
  | .error (.panic _), h => exact h

theorem EndsWell.const {α : Type} {p : Prop} {x : Res α} (h : NoCrash p x) : EndsWell p fun _ => x :=
  ⟨0, x, h, fun _ _ => rfl⟩

theorem EndsWell.mono {α : Type} {p q : Prop} {f : Nat → Res α} (h : EndsWell p f) (hpq : p → q) : EndsWell q f :=
  let ⟨N, x, hx, h⟩ := h
  ⟨N, x, hx.mono hpq, h⟩

theorem Decided.endsWell {α : Type} {p : Prop} {f : Nat → Res α} (h : Decided f) : EndsWell p f :=
  let ⟨N, a, h⟩ := h
  ⟨N, .ok a, trivial, h⟩

theorem EndsWell.bind {α β : Type} {p : Prop} {f : Nat → Res α} {g : α → Nat → Res β} (hf : EndsWell p f)
    (hg : ∀ a N, (∀ n, N ≤ n → f n = .ok a) → EndsWell p (g a)) : EndsWell p fun n => f n >>= fun a => g a n := by
  obtain ⟨N, r, hr, h⟩ := hf
  cases r with
  | error e =>
    refine ⟨N, .error e, ?_, fun n hn => ?_⟩
    · cases e with
      | fuel => exact hr.elim
      | err m => exact hr
      | panic m => exact hr
    · dsimp only
      rw [h n hn]; rfl
  | ok a =>
    obtain ⟨M, r', hr', h'⟩ := hg a N h
    refine ⟨max N M, r', hr', fun n hn => ?_⟩
    dsimp only
    rw [h n (by omega)]
    exact h' n (by omega)

/-- **C78** (partial) Building a system from complete components ends, with the system or with an error message
that refuses it for one of the reasons of `Recipe.Refused`; the only crash is an overflow of constants.  Missing:
guards outside the fragment of C01, which can crash (`C78_violated_rejected_guard`). -/
theorem C78_compile_partial (hfin : FiniteExtrapolation F) : ∀ (r : Recipe) (env : CompileEnv F) (i : Nat), env.Perm →
    r.Ok (dim F) → (∀ c ∈ r.components, c.Complete) → r.FairEnv env →
    EndsWell (r.Refused F) fun n => r.compile (env.withFuel n) i
  | .component c x, env, i, he, ho, hc, _ => by
    refine EndsWell.bind (f := fun _ => CompComp.compile (env.locOrder i) c i) (.const ?_) fun _ _ _ => .const trivial
    refine (C78_component (ho.1 c (by simp [Recipe.components])) (hc c (by simp [Recipe.components])) (he i) i).mono ?_
    rintro ⟨e, h1, e', h2, h3, h4, h5, h6⟩
    exact .ambiguous h1 h2 h3 h4 h5 h6
  | .composition l r, env, i, he, ho, hc, hf => by
    obtain ⟨hl, hr⟩ := Recipe.Ok.split (p := l.quotientClocks) (q := r.quotientClocks) ho
    refine ((C78_compile_partial hfin l (env.sub false) i he hl (fun c h => hc c (List.mem_append_left _ h)) hf.1).mono
      (.part (.inl rfl))).bind fun x N hx => ?_
    refine ((C78_compile_partial hfin r (env.sub true) x.2 he hr (fun c h => hc c (List.mem_append_right _ h)) hf.2).mono
      (.part (.inr rfl))).bind fun y M hy => ?_
    refine EndsWell.bind (f := fun _ => Sys.newComposition x.1 y.1) (.const ?_) fun _ _ _ => .const trivial
    by_cases h : ∃ a ∈ x.1.outputs, a ∈ y.1.outputs
    · obtain ⟨m, hm⟩ := (C08_composition_alphabet x.1 y.1).1 h
      obtain ⟨a, h1, h2⟩ := h
      rw [hm]
      exact .composition ⟨(env.sub false).withFuel N, i, x.2, he, hx N le_rfl⟩
        ⟨(env.sub true).withFuel M, x.2, y.2, he, hy M le_rfl⟩ h1 h2
    · obtain ⟨s, hs, _⟩ := (C08_composition_alphabet x.1 y.1).2 h
      rw [hs]; trivial
  | .conjunction l r, env, i, he, ho, hc, hf => by
    obtain ⟨hl, hr⟩ := Recipe.Ok.split (p := l.quotientClocks) (q := r.quotientClocks) ho
    refine ((C78_compile_partial hfin l (env.sub false) i he hl (fun c h => hc c (List.mem_append_left _ h)) hf.1).mono
      (.part (.inl rfl))).bind fun x N hN => ?_
    refine ((C78_compile_partial hfin r (env.sub true) x.2 he hr (fun c h => hc c (List.mem_append_right _ h)) hf.2.1).mono
      (.part (.inr rfl))).bind fun y M hM => ?_
    refine EndsWell.bind (f := fun n => Sys.newConjunction (env.checks []) n x.1 y.1) ?_ fun _ _ _ => .const trivial
    have ml : l.Means x.1 := ⟨(env.sub false).withFuel N, i, x.2, he, hN N le_rfl⟩
    have mr : r.Means y.1 := ⟨(env.sub true).withFuel M, x.2, y.2, he, hM M le_rfl⟩
    by_cases h : ∃ a, (a ∈ x.1.inputs ∧ a ∈ y.1.outputs) ∨ (a ∈ x.1.outputs ∧ a ∈ y.1.inputs)
    · obtain ⟨m, hm⟩ := (C08_conjunction_alphabet x.1 y.1).1 h
      obtain ⟨a, h⟩ := h
      refine ⟨0, .error (.err m), .conjunction ml mr h, fun n _ => ?_⟩
      dsimp only
      unfold Sys.newConjunction
      rw [hm]; rfl
    · obtain ⟨s, hs, _⟩ := (C08_conjunction_alphabet x.1 y.1).2 h
      have hF := hf.2.2 (max N M) i x.2 y.2 x.1 y.1 s (hN _ (le_max_left _ _)) (hM _ (le_max_right _ _)) hs
      have hacc := Sys.Accepted.conjunction (Recipe.compile_accepted (env := (env.sub false).withFuel N) he hl (hN N le_rfl))
        (Recipe.compile_accepted (env := (env.sub true).withFuel M) he hr (hM M le_rfl)) hs
      obtain ⟨K, o, hK⟩ := Sys.isLeastConsistent_ends hacc.good hfin
        (ordI := (env.checks []).inputs) (ordO := (env.checks []).outputs)
        (fun k a ha => .inl ((hF k).1.mem_iff.1 ha)) (fun k a ha => .inr ((hF k).2.mem_iff.1 ha))
      cases o with
      | none =>
        refine ⟨K, .ok s, trivial, fun n hn => ?_⟩
        dsimp only
        unfold Sys.newConjunction
        rw [hs, ok_bind, hK n hn]; rfl
      | some f =>
        refine ⟨K, .error (.err "inconsistent conjunction"), .inconsistent ml mr hs (hK K le_rfl), fun n hn => ?_⟩
        dsimp only
        unfold Sys.newConjunction
        rw [hs, ok_bind, hK n hn]; rfl
  | .quotient l r q, env, i, he, ho, hc, hf => by
    obtain ⟨hl, hr, h0, hn⟩ := Recipe.Ok.quotient ho
    refine ((C78_compile_partial hfin l (env.sub false) i he hl (fun c h => hc c (List.mem_append_left _ h)) hf.1).mono
      (.part (.inl rfl))).bind fun x N hN => ?_
    refine ((C78_compile_partial hfin r (env.sub true) x.2 he hr (fun c h => hc c (List.mem_append_right _ h)) hf.2.1).mono
      (.part (.inr rfl))).bind fun y M hM => ?_
    refine EndsWell.bind (f := fun n => Sys.newQuotient env.checks n x.1 y.1 q) ?_ fun _ _ _ => .const trivial
    have ml : l.Means x.1 := ⟨(env.sub false).withFuel N, i, x.2, he, hN N le_rfl⟩
    have mr : r.Means y.1 := ⟨(env.sub true).withFuel M, x.2, y.2, he, hM M le_rfl⟩
    have hF := hf.2.2 (max N M) i x.2 y.2 x.1 y.1 (hN _ (le_max_left _ _)) (hM _ (le_max_right _ _))
    by_cases h : ∃ a ∈ y.1.outputs, a ∈ x.1.inputs
    · obtain ⟨m, hm⟩ := (C08_quotient_alphabet x.1 y.1 q).1 h
      obtain ⟨a, h1, h2⟩ := h
      refine ⟨0, .error (.err m), .quotient ml mr h1 h2, fun n _ => ?_⟩
      dsimp only
      unfold Sys.newQuotient
      rw [hm]; rfl
    · obtain ⟨s, new, hs, _⟩ := (C08_quotient_alphabet x.1 y.1 q).2 h
      obtain ⟨K, o, hK⟩ := C59_consistency hfin
        (Recipe.compile_accepted (env := (env.sub false).withFuel N) he hl (hN N le_rfl)) _ hF.1
      obtain ⟨K', o', hK'⟩ := C59_consistency hfin
        (Recipe.compile_accepted (env := (env.sub true).withFuel M) he hr (hM M le_rfl)) _ hF.2
      dsimp only at hK hK'
      cases o with
      | some f =>
        refine ⟨K, .error (.err "precheck of T failed"), .unfit (.inl rfl) ml (hK K le_rfl), fun n hn => ?_⟩
        dsimp only
        unfold Sys.newQuotient
        rw [hs, ok_bind, hK n hn]; rfl
      | none =>
        cases o' with
        | some f =>
          refine ⟨max K K', .error (.err "precheck of S failed"), .unfit (.inr rfl) mr (hK' K' le_rfl), fun n hn => ?_⟩
          dsimp only
          unfold Sys.newQuotient
          rw [hs, ok_bind, hK n (by omega), ok_bind]
          dsimp only
          rw [hK' n (by omega)]; rfl
        | none =>
          refine ⟨max K K', .ok s, trivial, fun n hn => ?_⟩
          dsimp only
          unfold Sys.newQuotient
          rw [hs, ok_bind, hK n (by omega), ok_bind]
          dsimp only
          rw [hK' n (by omega)]; rfl

end Reveaal
