import Verif.Lemmas.PruneRun
import Verif.Spec.Prune
import Verif.Spec.Refinement

/-!
# Pruned components
-/

namespace Reveaal
open ZoneLib
variable {F : Type} [ZoneLib F] {c : Component}

/-! ## What the work of pruning returns -/

/-- `c'` is `c` without the states `P`. -/
structure PrunedTo (F : Type) [ZoneLib F] (c c' : Component) (P : String → Set Val) : Prop where
  decls : c'.decls = c.decls
  locs : List.Forall₂ (fun (l l' : Location) => l'.id = l.id ∧ l'.ty = l.ty ∧ ∃ S, CondMeans F c.decls l'.invariant S ∧
    ∀ v, Valid (dim F) v → (v ∈ S ↔ v ∈ condSet c.decls l.invariant ∧ v ∉ P l.id)) c.locations c'.locations
  edges : ∀ e' ∈ c'.edges, ∃ e ∈ c.edges, e.Same e' ∧
    ∃ S, CondMeans F c.decls e'.guard S ∧ S ⊆ condSet c.decls e.guard
  kept : ∀ e ∈ c.edges, ∀ v, v ∈ PruneCtx.pre c F e Set.univ → v ∉ P e.source →
    runUpdates (e.ups c.decls) v ∉ P e.target →
    ∃ e' ∈ c'.edges, e.Same e' ∧ ∃ S, CondMeans F c.decls e'.guard S ∧ v ∈ S
  closed : ∀ e ∈ c.edges, e.sync = .input → PruneCtx.pre c F e (P e.target) ⊆ P e.source

theorem lookup_univs : ∀ (bad : List String) (m : List (String × F)) (n : String),
    (∀ z, m.lookup n = some z → z = univ) →
    (bad.foldl (fun m n => hmInsert n (univ : F) m) m).lookup n = if n ∈ bad then some univ else m.lookup n := by
  intro bad
  induction bad with
  | nil => intro m n _; simp
  | cons b bad ih =>
    intro m n hm
    rw [List.foldl_cons, ih _ n (by
      intro z hz
      rw [lookup_hmInsert] at hz
      split at hz
      · cases hz; rfl
      · exact hm z hz), lookup_hmInsert]
    by_cases h1 : n ∈ bad
    · simp [h1]
    · by_cases h2 : b = n
      · subst h2; simp
      · have : n ≠ b := fun h => h2 h.symm
        simp [h1, h2, this]

theorem withoutPart_spec (hc : PruneOk F c) {parts : List (String × F)} {l l' : Location} (hl : l ∈ c.locations)
    (h : l.withoutPart c.decls parts = .ok l') :
    l'.id = l.id ∧ l'.ty = l.ty ∧ ∃ S, CondMeans F c.decls l'.invariant S ∧ ∀ v, Valid (dim F) v →
      (v ∈ S ↔ v ∈ condSet c.decls l.invariant ∧ ¬ ∃ z, parts.lookup l.id = some z ∧ v ∈ den z) := by
  have hm := condMeans_code (F := F) hc.ok.decls (hc.ok.invs l hl)
  unfold Location.withoutPart at h
  cases hp : parts.lookup l.id with
  | none =>
    rw [hp] at h
    cases h
    exact ⟨rfl, rfl, _, hm, fun v _ => by simp⟩
  | some bad =>
    rw [hp] at h
    obtain ⟨z, h1, h⟩ := bind_ok h
    obtain ⟨g, h2, h⟩ := bind_ok h
    cases h
    refine ⟨rfl, rfl, _, condMeans_generated hc.ok.decls hc.naming h2, fun v hv => ?_⟩
    rw [den_subtraction, restrict_den hm h1, den_univ]
    simp only [Set.mem_ofPred_eq, Set.mem_inter_iff, Option.some.injEq, exists_eq_left']
    exact ⟨fun h => ⟨h.1.2, h.2⟩, fun h => ⟨⟨hv, h.1⟩, h.2⟩⟩

theorem pruneWork_spec (hc : PruneOk F c) {predt : F → F → F} {fuel : Nat} {bad : List String} {c' : Component}
    (h : pruneWork predt fuel bad c = .ok c') : ∃ P, PrunedTo F c c' P ∧
      (∀ n ∈ bad, ∀ v, Valid (dim F) v → v ∈ P n) ∧
      (PruneCtx.PredtOk predt → ∀ K, PruneCtx.Safe F c K → (∀ n ∈ bad, ∀ v, ¬ K n v) → ∀ n v, K n v → v ∉ P n) := by
  unfold pruneWork at h
  obtain ⟨x, h1, hadd⟩ := bind_ok h
  set x0 : PruneCtx F := ⟨c, bad.reverse, bad.foldl (fun m n => hmInsert n (univ : F) m) [], []⟩ with hx0
  have hpart : ∀ n v, v ∈ x0.Part n ↔ n ∈ bad ∧ Valid (dim F) v := by
    intro n v
    unfold PruneCtx.Part
    rw [hx0]
    simp only [Set.mem_ofPred_eq]
    rw [lookup_univs bad [] n (by intro z hz; cases hz)]
    split
    · rename_i hn
      simp [hn, den_univ]
    · rename_i hn
      simp [hn]
  have hf : x0.Fine c :=
    ⟨rfl, fun e he => ⟨e, he, .refl e, _, hc.guard_means he, fun _ h => h⟩, fun p hp => (by cases hp)⟩
  have hcl : x0.InputClosed c := by
    intro e _ _ hn v hv
    have := (hpart _ _).1 hv.2.2.2.2
    exact absurd (List.mem_reverse.2 this.1) hn
  have hk0 : ∀ K, x0.Kept c K := fun K e he v hv _ _ => ⟨e, he, .refl e, _, hc.guard_means he, hv.2.2.1⟩
  obtain ⟨f1, m1, cl1, e1, k1⟩ := PruneCtx.loop_spec hc hf hcl h1
  unfold addParts at hadd
  obtain ⟨ls, h2, hls⟩ := bind_ok hadd
  cases hls
  have hdecls := f1.decls
  have hlocs : x.comp.locations = c.locations := by rw [f1.comp]
  rw [hdecls, hlocs] at h2
  refine ⟨x.Part, ⟨hdecls, ?_, f1.edges, ?_, ?_⟩, ?_, ?_⟩
  · have h3 := mapM_ok.1 h2
    have h4 : List.Forall₂ (fun (l l' : Location) => l ∈ c.locations ∧ l.withoutPart c.decls x.parts = .ok l')
        c.locations ls := by
      clear h2 hlocs
      have : ∀ (xs : List Location) (ys : List Location), (∀ l ∈ xs, l ∈ c.locations) →
          List.Forall₂ (fun (l l' : Location) => l.withoutPart c.decls x.parts = .ok l') xs ys →
          List.Forall₂ (fun (l l' : Location) => l ∈ c.locations ∧ l.withoutPart c.decls x.parts = .ok l') xs ys := by
        intro xs ys hxs hxy
        induction hxy with
        | nil => exact .nil
        | cons hab _ ih => exact .cons ⟨hxs _ (by simp), hab⟩ (ih fun l hl => hxs l (by simp [hl]))
      exact this _ _ (fun _ h => h) h3
    exact h4.imp fun l l' ⟨hl, hw⟩ => withoutPart_spec hc hl hw
  · exact fun e he v hv hs ht => k1 (fun n v => v ∉ x.Part n) (fun n v h => h) (hk0 _) e he v hv hs ht
  · exact fun e he hs => cl1 e he hs (by rw [e1]; simp)
  · exact fun n hn v hv => m1 n ((hpart n v).2 ⟨hn, hv⟩)
  · intro hp K hK hb n v hn
    exact (hK.loop hc hp hf (fun n v hn hv => hb n ((hpart n v).1 hv).1 v hn) (hk0 K) h1).1 n v hn

/-! ## Moves of a compiled component -/

/-- Outside universal and inconsistent locations, the moves of a compiled component are those of its edges. -/
theorem comp_act {order : List (LocId × LocTree F) → List (LocId × LocTree F)} {ins outs : List String} {id : Nat}
    {x : CompComp F} (ho : ∀ l, (order l).Perm l) (h : CompComp.compileWith order c ins outs id = .ok x)
    {l : LocTree F} (hl : (Sys.comp x).IsLoc l) (hu : l.isUniversal = false)
    {a : String} (hi : l.isInconsistent = false ∨ a ∉ ins) {v : Val} {l' : LocTree F} {v' : Val} :
    (Sys.comp x).ts.Act l v a l' v' ↔ (a ∈ ins ∨ a ∈ outs) ∧ ∃ e ∈ c.edges, LocId.simple e.source = l.id ∧ e.action = a ∧
      ∃ t, Transition.fromEdge c e = .ok t ∧ CanTake t v ∧ l' = t.target ∧ v' = runUpdates t.updates v := by
  obtain ⟨xi, xo, _, _⟩ := compileWith_content ho h
  obtain ⟨loc, hloc, hs, es, hes, hf⟩ := compile_next_exact ho h hl
  obtain ⟨inv, hl1, _⟩ := simple_spec hs
  have hid : l.id = .simple loc.id := by rw [hl1]; rfl
  have hact : (Sys.comp x).ts.hasAction a = true ↔ a ∈ ins ∨ a ∈ outs := by
    show (x.inputs.contains a || x.outputs.contains a) = true ↔ _
    rw [xi, xo]; simp
  have hnx : (Sys.comp x).ts.hasAction a = true →
      (Sys.comp x).ts.next l a = .ok ((es.filter fun e => e.1 = a).map (·.2)) := by
    intro ha
    show x.next l a = _
    unfold CompComp.next
    have h1 : (x.inputs.contains a || x.outputs.contains a) = true := ha
    have h3 : (l.isInconsistent && x.inputs.contains a) = false := by
      rcases hi with hi | hi
      · rw [hi]; rfl
      · rw [xi]; simp [hi]
    rw [h1, hu, h3, hes]
    rfl
  unfold TS.Act
  rw [hact]
  refine and_congr_right fun ha => ?_
  have hnx := hnx (hact.2 ha)
  constructor
  · rintro ⟨trans, hn, t, ht, hcan, rfl, rfl⟩
    rw [hnx] at hn; cases hn
    obtain ⟨y, hy, rfl⟩ := List.mem_map.1 ht
    obtain ⟨hy1, hy2⟩ := List.mem_filter.1 hy
    obtain ⟨e, he, hye, hfe⟩ := forall2_mem_right hf y hy1
    obtain ⟨he1, he2⟩ := List.mem_filter.1 he
    exact ⟨e, he1, by rw [hid, of_decide_eq_true he2], by rw [← hye]; exact of_decide_eq_true hy2, y.2, hfe, hcan, rfl, rfl⟩
  · rintro ⟨e, he, hsrc, hea, t, hfe, hcan, rfl, rfl⟩
    rw [hid] at hsrc
    simp only [LocId.simple.injEq] at hsrc
    obtain ⟨y, hy, hya, hyt⟩ := forall2_mem_left hf e (List.mem_filter.2 ⟨he, by simp [hsrc]⟩)
    rw [hfe] at hyt; cases hyt
    exact ⟨_, hnx, y.2, List.mem_map.2 ⟨y, List.mem_filter.2 ⟨hy, by simp [hya, hea]⟩, rfl⟩, hcan, rfl, rfl⟩

/-- In a universal location every action is possible and changes nothing. -/
theorem comp_act_universal {x : CompComp F} {l : LocTree F} (hu : l.isUniversal = true) {a : String} {v : Val}
    {l' : LocTree F} {v' : Val} : (Sys.comp x).ts.Act l v a l' v' ↔
      (a ∈ x.inputs ∨ a ∈ x.outputs) ∧ Valid (dim F) v ∧ v ∈ InvSet l ∧ l' = l ∧ v' = v := by
  have hact : (Sys.comp x).ts.hasAction a = true ↔ a ∈ x.inputs ∨ a ∈ x.outputs := by
    show (x.inputs.contains a || x.outputs.contains a) = true ↔ _
    simp
  unfold TS.Act
  rw [hact]
  refine and_congr_right fun ha => ?_
  have hnx : (Sys.comp x).ts.next l a = .ok [Transition.withoutId l] := by
    show x.next l a = _
    unfold CompComp.next
    have h1 : (x.inputs.contains a || x.outputs.contains a) = true := hact.2 ha
    rw [h1, hu]
    rfl
  have hcan : CanTake (Transition.withoutId l) v ↔ Valid (dim F) v ∧ v ∈ InvSet l := by
    unfold CanTake Transition.withoutId
    rw [den_univ]
    rfl
  constructor
  · rintro ⟨trans, hn, t, ht, hc, rfl, rfl⟩
    rw [hnx] at hn; cases hn
    obtain rfl := List.mem_singleton.1 ht
    exact ⟨(hcan.1 hc).1, (hcan.1 hc).2, rfl, rfl⟩
  · rintro ⟨hv, hi, rfl, rfl⟩
    exact ⟨_, hnx, _, .head _, hcan.2 ⟨hv, hi⟩, rfl, rfl⟩

end Reveaal
