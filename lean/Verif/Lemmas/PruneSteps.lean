import Verif.Lemmas.PruneLoop

/-!
# The steps of the loop of pruning
-/

namespace Reveaal
open ZoneLib
variable {F : Type} [ZoneLib F] {c : Component}

namespace PruneCtx

/-- The states of a location found inconsistent so far. -/
def Part (x : PruneCtx F) (n : String) : Set Val := {v | ∃ z, x.parts.lookup n = some z ∧ v ∈ den z}

/-- What holds throughout: locations and declarations are those of the component, edges have stronger guards, and what
was recorded as processed is part of what was found. -/
structure Fine (c : Component) (x : PruneCtx F) : Prop where
  comp : x.comp = { c with edges := x.comp.edges }
  edges : ∀ e' ∈ x.comp.edges, ∃ e ∈ c.edges, e.Same e' ∧
    ∃ S, CondMeans F c.decls e'.guard S ∧ S ⊆ condSet c.decls e.guard
  passed : ∀ p ∈ x.passed, den p.2 ⊆ x.Part p.1

/-- More has been found; what has changed is on the stack. -/
structure Le (x x' : PruneCtx F) : Prop where
  part : ∀ n, x.Part n ⊆ x'.Part n
  locs : ∀ n ∈ x.locs, n ∈ x'.locs
  same : ∀ n, n ∉ x'.locs → x'.Part n ⊆ x.Part n

theorem Le.refl (x : PruneCtx F) : x.Le x := ⟨fun _ _ h => h, fun _ h => h, fun _ _ _ h => h⟩

theorem Le.trans {x y z : PruneCtx F} (h : x.Le y) (h' : y.Le z) : x.Le z :=
  ⟨fun n v hv => h'.part n (h.part n hv), fun n hn => h'.locs n (h.locs n hn),
    fun n hn v hv => h.same n (fun hm => hn (h'.locs n hm)) (h'.same n hn hv)⟩

theorem Fine.decls {x : PruneCtx F} (h : x.Fine c) : x.comp.decls = c.decls := by rw [h.comp]

theorem Fine.loc {x : PruneCtx F} (h : x.Fine c) (n : String) : x.comp.locationByName n = c.locationByName n := by
  rw [h.comp]; rfl

theorem Part_eq {x x' : PruneCtx F} (h : x'.parts = x.parts) (n : String) : x'.Part n = x.Part n := by
  unfold Part; rw [h]

theorem getIncons_den {x : PruneCtx F} {n : String} {z : F} (h : x.getIncons n = .ok z) : den z = x.Part n := by
  unfold getIncons at h
  split at h
  · rename_i z' hz
    cases h
    ext v
    exact ⟨fun hv => ⟨_, hz, hv⟩, by rintro ⟨z'', h1, hv⟩; rw [hz] at h1; cases h1; exact hv⟩
  · cases h

theorem withoutPart_den {x : PruneCtx F} {n : String} {z : F} :
    den (withoutPart (x.parts.lookup n) z) = {v | v ∈ den z ∧ v ∉ x.Part n} := by
  unfold withoutPart Part
  cases h : x.parts.lookup n with
  | none => ext v; simp
  | some i => rw [den_subtraction]; ext v; simp

/-! ## Edges -/

theorem Fine.removeEdge {x : PruneCtx F} (h : x.Fine c) (e : Edge) : (x.removeEdge e).Fine c :=
  ⟨by unfold PruneCtx.removeEdge; dsimp only; rw [h.comp], fun e' he' => h.edges e' (List.mem_of_mem_erase he'), h.passed⟩

theorem removeEdge_le (x : PruneCtx F) (e : Edge) : x.Le (x.removeEdge e) :=
  ⟨fun _ _ h => h, fun _ h => h, fun _ _ _ h => h⟩

theorem mem_replaceGuard {e : Edge} {g : Option BoolE} : ∀ {l : List Edge} {e' : Edge}, e' ∈ replaceGuard e g l →
    e' ∈ l ∨ e' = { e with guard := g } := by
  intro l
  induction l with
  | nil => intro e' h; cases h
  | cons a l ih =>
    intro e' h
    unfold replaceGuard at h
    split at h
    · rename_i ha
      subst ha
      rcases List.mem_cons.1 h with rfl | h
      · exact .inr rfl
      · exact .inl (by simp [h])
    · rcases List.mem_cons.1 h with rfl | h
      · exact .inl (by simp)
      · rcases ih h with h | h
        · exact .inl (by simp [h])
        · exact .inr h

theorem replaceGuard_mem {e : Edge} {g : Option BoolE} : ∀ {l : List Edge}, e ∈ l →
    { e with guard := g } ∈ replaceGuard e g l ∧ ∀ e' ∈ l, e' ≠ e → e' ∈ replaceGuard e g l := by
  intro l
  induction l with
  | nil => intro h; cases h
  | cons a l ih =>
    intro h
    unfold replaceGuard
    split
    · rename_i ha
      subst ha
      refine ⟨by simp, fun e' he' hne => ?_⟩
      rcases List.mem_cons.1 he' with rfl | he'
      · exact absurd rfl hne
      · simp [he']
    · rename_i ha
      have h : e ∈ l := by
        rcases List.mem_cons.1 h with rfl | h
        · exact absurd rfl ha
        · exact h
      obtain ⟨h1, h2⟩ := ih h
      refine ⟨by simp [h1], fun e' he' hne => ?_⟩
      rcases List.mem_cons.1 he' with rfl | he'
      · simp
      · simp [h2 e' he' hne]

theorem updateGuard_fine (hc : PruneOk F c) {x x' : PruneCtx F} (h : x.Fine c) {e : Edge} (he : e ∈ c.edges) {z : F}
    (hz : den z ⊆ condSet c.decls e.guard) (hu : x.updateGuard e z = .ok x') :
    x'.Fine c ∧ x'.parts = x.parts ∧ x'.locs = x.locs := by
  unfold updateGuard at hu
  split at hu
  · obtain ⟨g, hg, hu⟩ := bind_ok hu
    cases hu
    rw [h.decls] at hg
    refine ⟨⟨by dsimp only; rw [h.comp], fun e' he' => ?_, h.passed⟩, rfl, rfl⟩
    rcases mem_replaceGuard he' with he' | rfl
    · exact h.edges e' he'
    · exact ⟨e, he, ⟨g, rfl⟩, den z, condMeans_generated hc.ok.decls hc.naming hg, hz⟩
  · cases hu
    exact ⟨h, rfl, rfl⟩

theorem le_of_eq {x x' : PruneCtx F} (hp : x'.parts = x.parts) (hl : x'.locs = x.locs) : x.Le x' :=
  ⟨fun n => by rw [Part_eq hp], fun n h => by rw [hl]; exact h, fun n _ => by rw [Part_eq hp]⟩

/-! ## Source locations -/

theorem processSource_spec {x : PruneCtx F} (h : x.Fine c) (n : String) (z : F) :
    (x.processSource n z).Fine c ∧ x.Le (x.processSource n z) ∧ (x.processSource n z).comp = x.comp ∧
    ∀ m v, v ∈ (x.processSource n z).Part m ↔ v ∈ x.Part m ∨ m = n ∧ v ∈ den z := by
  unfold processSource
  split
  · rename_i he
    rw [ZoneLib.isEmpty_iff] at he
    refine ⟨h, .refl x, rfl, fun m v => ?_⟩
    rw [he]; simp
  · dsimp only
    generalize hz1 : unionPart (x.parts.lookup n) z = z1
    have hd1 : ∀ v, v ∈ den z1 ↔ v ∈ x.Part n ∨ v ∈ den z := by
      intro v
      rw [← hz1]
      unfold Part unionPart
      cases hl : x.parts.lookup n with
      | none => simp
      | some p => simp only [den_append, Set.mem_union, Set.mem_ofPred_eq, Option.some.injEq, exists_eq_left']; tauto
    have hpart : ∀ y : PruneCtx F, y.parts = hmInsert n z1 x.parts →
        ∀ m v, v ∈ y.Part m ↔ v ∈ x.Part m ∨ m = n ∧ v ∈ den z := by
      intro y hy m v
      unfold Part
      rw [hy, lookup_hmInsert]
      split
      · rename_i hm
        subst hm
        simp only [Set.mem_ofPred_eq, Option.some.injEq, exists_eq_left', hd1]
        unfold Part
        simp
      · rename_i hm
        simp [hm]
    have hmono : ∀ y : PruneCtx F, y.parts = hmInsert n z1 x.parts → ∀ m, x.Part m ⊆ y.Part m :=
      fun y hy m v hv => (hpart y hy m v).2 (.inl hv)
    split
    · rename_i hany
      refine ⟨⟨h.comp, h.edges, fun p hp => Set.Subset.trans (h.passed p hp) (hmono _ rfl _)⟩, ?_, rfl, hpart _ rfl⟩
      refine ⟨hmono _ rfl, fun _ h => h, fun m _ v hv => ?_⟩
      rcases (hpart _ rfl m v).1 hv with hv | ⟨rfl, hvz⟩
      · exact hv
      · obtain ⟨p, hp, hpe⟩ := List.any_eq_true.1 hany
        simp only [Bool.and_eq_true, decide_eq_true_eq] at hpe
        obtain ⟨rfl, hpe⟩ := hpe
        rw [equals_iff] at hpe
        exact h.passed p hp (by rw [hpe]; exact (hd1 v).2 (.inr hvz))
    · refine ⟨⟨h.comp, h.edges, fun p hp => ?_⟩, ?_, rfl, hpart _ rfl⟩
      · rcases List.mem_append.1 hp with hp | hp
        · exact Set.Subset.trans (h.passed p hp) (hmono _ rfl _)
        · obtain rfl := List.mem_singleton.1 hp
          intro v hv
          refine (hpart _ rfl _ v).2 ?_
          rcases (hd1 v).1 hv with hv | hv
          · exact .inl hv
          · exact .inr ⟨rfl, hv⟩
      · refine ⟨hmono _ rfl, fun _ h => List.mem_cons_of_mem _ h, fun m hm v hv => ?_⟩
        rcases (hpart _ rfl m v).1 hv with hv | ⟨rfl, hv⟩
        · exact hv
        · exact absurd (List.mem_cons_self) hm

/-- The states that an edge takes into `S`. -/
def pre (c : Component) (F : Type) [ZoneLib F] (e : Edge) (S : Set Val) : Set Val :=
  {v | Valid (dim F) v ∧ v ∈ c.invAt e.source ∧ v ∈ condSet c.decls e.guard ∧
    runUpdates (e.ups c.decls) v ∈ c.invAt e.target ∧ runUpdates (e.ups c.decls) v ∈ S}

/-- `predt` looks back in time only. -/
def PredtOk (predt : F → F → F) : Prop := ∀ a b, den (predt a b) ⊆ den (down a)

theorem predtOutputs_spec {predt : F → F → F} {x : PruneCtx F} {l : Location} : ∀ {os : List Edge} {z z' : F},
    os.foldlM (x.predtOutput predt l) z = .ok z' → den z ⊆ den z' ∧
      (PredtOk predt → ∀ v ∈ den z', ∃ d : ℝ, 0 ≤ d ∧ delay (dim F) v d ∈ den z) := by
  intro os
  induction os with
  | nil => intro z z' h; cases h; exact ⟨fun _ h => h, fun _ v hv => ⟨0, le_refl _, by rw [delay_zero]; exact hv⟩⟩
  | cons o os ih =>
    intro z z' h
    rw [List.foldlM_cons] at h
    obtain ⟨z1, h1, h⟩ := bind_ok h
    obtain ⟨i1, i2⟩ := ih h
    have h1' : ∃ s, z1 = append z (predt z s) := by
      unfold predtOutput at h1
      obtain ⟨_, _, h1⟩ := bind_ok h1
      obtain ⟨_, _, h1⟩ := bind_ok h1
      obtain ⟨_, _, h1⟩ := bind_ok h1
      obtain ⟨_, _, h1⟩ := bind_ok h1
      obtain ⟨_, _, h1⟩ := bind_ok h1
      obtain ⟨s, _, h1⟩ := bind_ok h1
      cases h1
      exact ⟨s, rfl⟩
    obtain ⟨s, rfl⟩ := h1'
    refine ⟨fun v hv => i1 (by rw [den_append]; exact .inl hv), fun hp v hv => ?_⟩
    obtain ⟨d, hd, hv⟩ := i2 hp v hv
    rw [den_append] at hv
    rcases hv with hv | hv
    · exact ⟨d, hd, hv⟩
    · have := hp _ _ hv
      rw [den_down] at this
      obtain ⟨_, d', hd', hv⟩ := this
      exact ⟨d + d', by linarith, by rw [← delay_add]; exact hv⟩

theorem spoilSource_spec (hc : PruneOk F c) {predt : F → F → F} {x x' : PruneCtx F} (h : x.Fine c) {e : Edge}
    {l : Location} {z : F} (hz : den z ⊆ c.invAt e.source) (hs : x.spoilSource predt e l z = .ok x') :
    x'.Fine c ∧ x.Le x' ∧ x'.comp = x.comp ∧ den z ⊆ x'.Part e.source ∧
    ∀ m v, v ∈ x'.Part m → v ∈ x.Part m ∨ m = e.source ∧
      (PredtOk predt → ∃ d : ℝ, 0 ≤ d ∧ delay (dim F) v d ∈ den z) := by
  unfold spoilSource at hs
  split at hs
  · rename_i he
    cases hs
    rw [ZoneLib.isEmpty_iff] at he
    rw [he]
    exact ⟨h, .refl x, rfl, fun _ h => h.elim, fun m v hv => .inl hv⟩
  · obtain ⟨z', h1, hs⟩ := bind_ok hs
    obtain ⟨z'', h2, hs⟩ := bind_ok hs
    cases hs
    obtain ⟨i1, i2⟩ := predtOutputs_spec h1
    obtain ⟨p1, p2, p3, p4⟩ := processSource_spec h e.source z''
    have key : den z ⊆ den z'' ∧ (PredtOk predt → ∀ v ∈ den z'', ∃ d : ℝ, 0 ≤ d ∧ delay (dim F) v d ∈ den z) := by
      unfold pastIfSame at h2
      split at h2
      · obtain ⟨s, hs, h2⟩ := bind_ok h2
        rw [h.loc] at hs
        rw [h.decls] at h2
        rw [restrict_den (hc.inv_means hs) h2, den_down]
        refine ⟨fun v hv => ⟨⟨den_valid hv, 0, le_refl _, by rw [delay_zero]; exact i1 hv⟩, hz hv⟩, ?_⟩
        rintro hp v ⟨⟨_, d, hd, hv⟩, _⟩
        obtain ⟨d', hd', hv⟩ := i2 hp _ hv
        exact ⟨d + d', by linarith, by rw [← delay_add]; exact hv⟩
      · cases h2; exact ⟨i1, i2⟩
    refine ⟨p1, p2, p3, fun v hv => (p4 _ v).2 (.inr ⟨rfl, key.1 hv⟩), fun m v hv => ?_⟩
    rcases (p4 m v).1 hv with hv | ⟨hm, hv⟩
    · exact .inl hv
    · exact .inr ⟨hm, fun hp => key.2 hp v hv⟩

/-! ## Inputs -/

theorem removeIfUnsat_spec (hc : PruneOk F c) {x x' : PruneCtx F} (h : x.Fine c) {e : Edge} (he : e ∈ c.edges)
    (hr : x.removeIfUnsat e = .ok x') :
    x' = x ∨ x' = x.removeEdge e ∧ ∀ v, v ∈ pre c F e Set.univ → v ∉ x.Part e.source →
      runUpdates (e.ups c.decls) v ∉ x.Part e.target → False := by
  unfold removeIfUnsat at hr
  obtain ⟨t, h1, hr⟩ := bind_ok hr
  obtain ⟨z1, h2, hr⟩ := bind_ok hr
  obtain ⟨z2, h3, hr⟩ := bind_ok hr
  obtain ⟨z3, h4, hr⟩ := bind_ok hr
  obtain ⟨s, h5, hr⟩ := bind_ok hr
  obtain ⟨z4, h6, hr⟩ := bind_ok hr
  split at hr
  · rename_i hemp
    cases hr
    refine .inr ⟨rfl, fun v hv hs ht => ?_⟩
    rw [ZoneLib.isEmpty_iff] at hemp
    rw [h.loc] at h1 h5
    rw [h.decls] at h2 h3 h4 h6
    have : v ∈ den (withoutPart (x.parts.lookup e.source) z4) := by
      obtain ⟨hv1, hv2, hv3, hv4, _⟩ := hv
      rw [withoutPart_den, restrict_den (hc.inv_means h5) h6, applyGuard_den (hc.guard_means he) h4,
        undo_den hc he rfl h3, withoutPart_den, restrict_den (hc.inv_means h1) h2, den_univ]
      exact ⟨⟨⟨⟨hv1, ⟨runUpdates_valid (hc.ups he).2.1 hv1, hv4⟩, ht⟩, hv3⟩, hv2⟩, hs⟩
    rw [hemp] at this
    exact this
  · cases hr; exact .inl rfl

theorem handleInput_spec (hc : PruneOk F c) {predt : F → F → F} {x x' : PruneCtx F} (h : x.Fine c) {e : Edge}
    (he : e ∈ c.edges) (hr : x.handleInput predt e = .ok x') :
    x'.Fine c ∧ x.Le x' ∧ pre c F e (x.Part e.target) ⊆ x'.Part e.source ∧
    (∀ m v, v ∈ x'.Part m → v ∈ x.Part m ∨ m = e.source ∧
      (PredtOk predt → ∃ d : ℝ, 0 ≤ d ∧ delay (dim F) v d ∈ pre c F e (x.Part e.target))) ∧
    (x'.comp = x.comp ∨ x'.comp.edges = x.comp.edges.erase e ∧
      ∀ v, v ∈ pre c F e Set.univ → v ∉ x'.Part e.source → runUpdates (e.ups c.decls) v ∉ x'.Part e.target → False) := by
  unfold handleInput at hr
  obtain ⟨t, h1, hr⟩ := bind_ok hr
  obtain ⟨bad, h2, hr⟩ := bind_ok hr
  obtain ⟨z1, h3, hr⟩ := bind_ok hr
  obtain ⟨z2, h4, hr⟩ := bind_ok hr
  rw [h.loc] at h1
  rw [(locationByName_mem h1).2] at h2
  rw [h.decls] at h3 h4
  have hz1 : den z1 = x.Part e.target ∩ c.invAt e.target := by
    rw [restrict_den (hc.inv_means h1) h3, getIncons_den h2]
  obtain ⟨_, hu1, hu2⟩ := hc.ups he
  split at hr
  · rename_i hemp
    cases hr
    rw [ZoneLib.isEmpty_iff, asGuards_den hc he rfl h4, hz1] at hemp
    refine ⟨h, .refl x, fun v hv => ?_, fun m v hv => .inl hv, .inl rfl⟩
    obtain ⟨_, _, _, hv4, hv5⟩ := hv
    have : runUpdates (e.ups c.decls) v ∈ ({v | v ∈ x.Part e.target ∩ c.invAt e.target ∧
        ∀ u ∈ e.ups c.decls, v u.clock = (u.value : ℝ)} : Set Val) :=
      ⟨⟨hv5, hv4⟩, fun u hu => runUpdates_assigned hu2 hu⟩
    rw [hemp] at this
    exact this.elim
  · obtain ⟨z3, h5, hr⟩ := bind_ok hr
    obtain ⟨x1, h6, hr⟩ := bind_ok hr
    have hz3 : den z3 = pre c F e (x.Part e.target) := by
      unfold backThrough at h5
      obtain ⟨z4, h7, h5⟩ := bind_ok h5
      obtain ⟨z5, h8, h5⟩ := bind_ok h5
      obtain ⟨s, h9, h5⟩ := bind_ok h5
      rw [h.decls] at h7 h8 h5
      rw [h.loc] at h9
      rw [restrict_den (hc.inv_means h9) h5, applyGuard_den (hc.guard_means he) h8, guards_frees_den hc he rfl h4 h7, hz1]
      ext v
      simp only [pre, Set.mem_inter_iff, Set.mem_ofPred_eq]
      tauto
    obtain ⟨s1, s2, s3, s4, s5⟩ := spoilSource_spec hc h (by rw [hz3]; exact fun v hv => hv.2.1) h6
    rw [hz3] at s4 s5
    rcases removeIfUnsat_spec hc s1 he hr with rfl | ⟨rfl, hno⟩
    · exact ⟨s1, s2, s4, s5, .inl s3⟩
    · exact ⟨s1.removeEdge e, s2.trans (removeEdge_le _ _), s4, s5, .inr ⟨by rw [← s3]; rfl, hno⟩⟩

/-! ## Outputs -/

theorem cutEdge_spec (hc : PruneOk F c) {x x' : PruneCtx F} (h : x.Fine c) {e : Edge} (he : e ∈ c.edges)
    (hr : x.cutEdge e = .ok x') :
    x'.Fine c ∧ x.Le x' ∧ x'.parts = x.parts ∧ (x'.comp.edges = x.comp.edges ∨
      x'.comp.edges = x.comp.edges.erase e ∧ (∀ v, v ∈ pre c F e Set.univ →
        runUpdates (e.ups c.decls) v ∉ x.Part e.target → False) ∨
      ∃ g S, e ∈ x.comp.edges ∧ x'.comp.edges = replaceGuard e g x.comp.edges ∧ CondMeans F c.decls g S ∧
        ∀ v, v ∈ pre c F e Set.univ → runUpdates (e.ups c.decls) v ∉ x.Part e.target → v ∈ S) := by
  unfold cutEdge at hr
  obtain ⟨bad, h1, hr⟩ := bind_ok hr
  split at hr
  · rename_i hu
    cases hr
    refine ⟨h.removeEdge e, removeEdge_le x e, rfl, .inr (.inl ⟨rfl, fun v hv ht => ht ?_⟩)⟩
    rw [isUniverse_iff] at hu
    rw [← getIncons_den h1]
    exact hu _ (runUpdates_valid (hc.ups he).2.1 hv.1)
  · obtain ⟨bad', h2, hr⟩ := bind_ok hr
    obtain ⟨g, h3, hr⟩ := bind_ok hr
    dsimp only at hr
    rw [h.decls] at h2 h3
    have hd : den (subtraction g bad') = {v | (Valid (dim F) v ∧ v ∈ condSet c.decls e.guard) ∧
        ¬ (Valid (dim F) v ∧ runUpdates (e.ups c.decls) v ∈ x.Part e.target)} := by
      rw [den_subtraction, applyGuard_den (hc.guard_means he) h3, undo_den hc he rfl h2, den_univ, getIncons_den h1]
      rfl
    have hkey : ∀ v, v ∈ pre c F e Set.univ → runUpdates (e.ups c.decls) v ∉ x.Part e.target →
        v ∈ den (subtraction g bad') := by
      intro v hv ht
      rw [hd]
      exact ⟨⟨hv.1, hv.2.2.1⟩, fun h => ht h.2⟩
    split at hr
    · rename_i hemp
      cases hr
      refine ⟨h.removeEdge e, removeEdge_le x e, rfl, .inr (.inl ⟨rfl, fun v hv ht => ?_⟩)⟩
      have := hkey v hv ht
      rw [ZoneLib.isEmpty_iff] at hemp
      rw [hemp] at this
      exact this
    · obtain ⟨q1, q2, q3⟩ := updateGuard_fine hc h he (by rw [hd]; exact fun v hv => hv.1.2) hr
      refine ⟨q1, le_of_eq q2 q3, q2, ?_⟩
      unfold updateGuard at hr
      split at hr
      · rename_i hm
        obtain ⟨b, hb, hr⟩ := bind_ok hr
        cases hr
        rw [h.decls] at hb
        exact .inr (.inr ⟨b, _, hm, rfl, condMeans_generated hc.ok.decls hc.naming hb, hkey⟩)
      · cases hr; exact .inl rfl

theorem savesFold_spec (hc : PruneOk F c) {x : PruneCtx F} (h : x.Fine c) {inv : F} : ∀ {os : List Edge} {z z' : F},
    (∀ o ∈ os, o ∈ x.comp.edges) →
    os.foldlM (fun acc o => do .ok (append acc (← x.saves inv o))) z = .ok z' → den z ⊆ den z' ∧
      ∀ o ∈ os, ∀ S, CondMeans F c.decls o.guard S → ∀ v ∈ den inv, ∀ d : ℝ, 0 ≤ d →
        delay (dim F) v d ∈ S → runUpdates (o.ups c.decls) (delay (dim F) v d) ∈ c.invAt o.target →
        runUpdates (o.ups c.decls) (delay (dim F) v d) ∉ x.Part o.target → v ∈ den z' := by
  intro os
  induction os with
  | nil => intro z z' _ h; cases h; exact ⟨fun _ h => h, fun o ho => (by cases ho)⟩
  | cons o os ih =>
    intro z z' hos hf
    rw [List.foldlM_cons] at hf
    obtain ⟨z1, h1, hf⟩ := bind_ok hf
    obtain ⟨s, h2, h1⟩ := bind_ok h1
    cases h1
    obtain ⟨i1, i2⟩ := ih (fun o ho => hos o (by simp [ho])) hf
    refine ⟨fun v hv => i1 (by rw [den_append]; exact .inl hv), fun o' ho' S hS v hv d hd hg ht hp => ?_⟩
    rcases List.mem_cons.1 ho' with rfl | ho'
    · refine i1 ?_
      rw [den_append]
      refine .inr ?_
      unfold saves at h2
      obtain ⟨t, h3, h2⟩ := bind_ok h2
      obtain ⟨z2, h4, h2⟩ := bind_ok h2
      obtain ⟨z3, h5, h2⟩ := bind_ok h2
      obtain ⟨z4, h6, h2⟩ := bind_ok h2
      cases h2
      rw [h.loc] at h3
      rw [h.decls] at h4 h5 h6
      obtain ⟨e, he, hsame, _⟩ := h.edges o' (hos o' (by simp))
      obtain ⟨_, _, _, hup, _⟩ := hsame.upd
      have hups := (ups_same (d := c.decls) hup).2
      rw [hups] at ht hp
      have hval : Valid (dim F) (delay (dim F) v d) := delay_valid (den_valid hv) hd
      rw [den_inter, den_down, applyGuard_den hS h6, undo_den hc he hup h5, withoutPart_den,
        restrict_den (hc.inv_means h3) h4, den_univ]
      exact ⟨⟨den_valid hv, d, hd, ⟨hval, ⟨runUpdates_valid (hc.ups he).2.1 hval, ht⟩, hp⟩, hg⟩, hv⟩
    · exact i2 o' ho' S hS v hv d hd hg ht hp

theorem stuckSource_spec (hc : PruneOk F c) {x x' : PruneCtx F} (h : x.Fine c) {e : Edge}
    (hr : x.stuckSource e = .ok x') :
    x'.Fine c ∧ x.Le x' ∧ x'.comp = x.comp ∧ ∀ m v, v ∈ x'.Part m → v ∈ x.Part m ∨ m = e.source ∧
      v ∈ c.invAt e.source ∧ Valid (dim F) v ∧ (¬ ∀ d : ℝ, 0 ≤ d → delay (dim F) v d ∈ c.invAt e.source) ∧
      ∀ o ∈ x.comp.edges, o.source = e.source → o.sync = .output → ∀ S, CondMeans F c.decls o.guard S →
        ∀ d : ℝ, 0 ≤ d → delay (dim F) v d ∈ S →
        runUpdates (o.ups c.decls) (delay (dim F) v d) ∈ c.invAt o.target →
        runUpdates (o.ups c.decls) (delay (dim F) v d) ∈ x.Part o.target := by
  unfold stuckSource at hr
  obtain ⟨s, h1, hr⟩ := bind_ok hr
  obtain ⟨inv, h2, hr⟩ := bind_ok hr
  rw [h.loc] at h1
  rw [h.decls] at h2
  have hinv : den inv = {v | Valid (dim F) v ∧ v ∈ c.invAt e.source} := by
    rw [restrict_den (hc.inv_means h1) h2, den_univ]; rfl
  split at hr
  · cases hr
    exact ⟨h, .refl x, rfl, fun m v hv => .inl hv⟩
  · rename_i hcd
    obtain ⟨saved, h3, hr⟩ := bind_ok hr
    cases hr
    obtain ⟨p1, p2, p3, p4⟩ := processSource_spec h e.source (subtraction inv saved)
    refine ⟨p1, p2, p3, fun m v hv => ?_⟩
    rcases (p4 m v).1 hv with hv | ⟨hm, hv⟩
    · exact .inl hv
    · refine .inr ⟨hm, ?_⟩
      rw [den_subtraction] at hv
      obtain ⟨hvi, hvs⟩ := hv
      have hvi' := hvi
      rw [hinv] at hvi'
      refine ⟨hvi'.2, hvi'.1, fun hall => hcd ?_, fun o ho hos hoo S hS d hd hg ht => ?_⟩
      · rw [canDelay_iff]
        refine ⟨v, hvi, fun d hd => ?_⟩
        rw [hinv]
        exact ⟨delay_valid hvi'.1 hd, hall d hd⟩
      · by_contra hno
        refine hvs ((savesFold_spec hc h (fun o ho => (List.mem_filter.1 ho).1) h3).2 o ?_ S hS v hvi d hd hg ht hno)
        exact List.mem_filter.2 ⟨ho, by simp [hos, hoo]⟩

end PruneCtx
end Reveaal
