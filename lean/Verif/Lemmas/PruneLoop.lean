import Verif.Model.PruneLoop
import Verif.Lemmas.InputEnabler
import Verif.Lemmas.GuardOf
import Verif.Props.C28

/-!
# Facts about the loop of pruning
-/

namespace Reveaal
open ZoneLib
variable {F : Type} [ZoneLib F]

/-! ## Conditions -/

/-- Restricting zones to the condition `g` is intersecting with `S`. -/
def CondMeans (F : Type) [ZoneLib F] (d : Decls) (g : Option BoolE) (S : Set Val) : Prop :=
  ∀ z z' : F, applyOpt d g z = .ok z' → den z' = den z ∩ S

/-- The valuations a condition of a component selects. -/
def condSet (d : Decls) : Option BoolE → Set Val
  | none => Set.univ
  | some g => codeSet d g

theorem condMeans_code {d : Decls} (hd : d.InDim (dim F)) {g : Option BoolE}
    (hg : ∀ b, g = some b → b.ClocksIn fun i => i ∈ d.clocks.map (·.2)) : CondMeans F d g (condSet d g) := by
  intro z z' h
  cases g with
  | none => cases h; simp [condSet]
  | some b => exact apply_codeSet d hd b z z' (BoolE.InDim.of_clocks hd (hg b rfl)) h

theorem condMeans_generated {d : Decls} (hd : d.InDim (dim F)) (hg : GoodNaming d.clocks) {z : F} {g : Option BoolE}
    (h : Reveaal.fromDisjunction (minimal z) d.clocks = .ok g) : CondMeans F d g (den z) := by
  intro a a' ha
  have hm : Means d g _ := fromDisjunction_means hg d.ints h
  have hv : ∀ v, Valid (dim F) v → (HoldsOpt d v g ↔ v ∈ den z) := by
    intro v hv
    rw [← den_minimal z, hm.2 v hv.1]
    exact ⟨fun h => ⟨hv, h⟩, fun h => h.2⟩
  cases g with
  | none =>
    cases ha
    ext v
    exact ⟨fun h => ⟨h, (hv v (den_valid h)).1 trivial⟩, fun h => h.1⟩
  | some b =>
    obtain ⟨h1, h2⟩ := hm.1 b rfl
    rw [OkOrOvf.of_ok (C01_guard_exact_partial d hd b (h2 _) h1 a) ha]
    ext v
    exact ⟨fun h => ⟨h.1, (hv v (den_valid h.1)).1 h.2⟩, fun h => ⟨h.1, (hv v (den_valid h.1)).2 h.2⟩⟩

theorem restrict_den {d : Decls} {l : Location} {S : Set Val} (hS : CondMeans F d l.invariant S) {z z' : F}
    (h : l.restrict d z = .ok z') : den z' = den z ∩ S := by
  apply hS
  unfold Location.restrict at h
  cases hi : l.invariant with
  | none => rw [hi] at h; exact h
  | some b => rw [hi] at h; exact orPanic_ok h

theorem applyGuard_den {d : Decls} {e : Edge} {S : Set Val} (hS : CondMeans F d e.guard S) {z z' : F}
    (h : e.applyGuard d z = .ok z') : den z' = den z ∩ S := by
  apply hS
  unfold Edge.applyGuard at h
  cases hi : e.guard with
  | none => rw [hi] at h; exact h
  | some b => rw [hi] at h; exact orPanic_ok h

theorem simple_inv {d : Decls} {l : Location} {t : LocTree F} {S : Set Val} (hS : CondMeans F d l.invariant S)
    (h : LocTree.simple d l = .ok t) {v : Val} (hv : Valid (dim F) v) : v ∈ InvSet t ↔ v ∈ S := by
  obtain ⟨inv, rfl, h1, h2⟩ := simple_spec h
  cases hi : l.invariant with
  | none =>
    rw [h1 hi]
    have := hS univ univ (by rw [hi]; rfl)
    have hvu : v ∈ den (univ : F) := by rw [den_univ]; exact hv
    refine ⟨fun _ => ?_, fun _ i hi' => (by cases hi')⟩
    rw [this] at hvu; exact hvu.2
  | some b =>
    obtain ⟨z, hz, rfl⟩ := h2 b hi
    have := hS univ z (by rw [hi]; exact hz)
    have hvu : v ∈ den (univ : F) := by rw [den_univ]; exact hv
    constructor
    · intro h
      have := h z rfl
      rename_i h0
      rw [h0] at this; exact this.2
    · intro h i hi'
      cases hi'
      rw [this]; exact ⟨hvu, h⟩

theorem fromEdge_guard {c : Component} {e : Edge} {t : Transition F} {S : Set Val}
    (hS : CondMeans F c.decls e.guard S) (h : Transition.fromEdge c e = .ok t) {v : Val} (hv : Valid (dim F) v) :
    v ∈ den t.guard ↔ v ∈ S := by
  obtain ⟨_, _, _, _, h1, h2⟩ := fromEdge_spec h
  have : den t.guard = den (univ : F) ∩ S := by
    apply hS
    cases hi : e.guard with
    | none => rw [h1 hi]; rfl
    | some b => exact h2 b hi
  rw [this, den_univ]
  exact ⟨fun h => h.2, fun h => ⟨hv, h⟩⟩

/-! ## Back through updates -/

/-- The updates of an edge, compiled. -/
def Edge.ups (e : Edge) (d : Decls) : List CUpdate :=
  match e.compileUpdates d with
  | .ok us => us
  | .error _ => []

theorem compileUpdates_getD {d : Decls} {e : Edge} {us : List CUpdate} :
    e.compileUpdates d = .ok us ↔ (e.update.getD []).mapM (CUpdate.compile d) = .ok us := by
  unfold Edge.compileUpdates
  cases e.update with
  | none => rw [Option.getD_none, List.mapM_nil]; rfl
  | some l => rfl

theorem foldlM_compiled {d : Decls} {f : CUpdate → F → F} : ∀ {us : List Update} {cus : List CUpdate} {z z' : F},
    us.mapM (CUpdate.compile d) = .ok cus →
    us.foldlM (fun z u => do
      let cu ← CUpdate.compile d u
      .ok (f cu z)) z = .ok z' → z' = cus.foldl (fun z cu => f cu z) z := by
  intro us
  induction us with
  | nil => intro cus z z' h1 h2; rw [List.mapM_nil] at h1; cases h1; cases h2; rfl
  | cons u us ih =>
    intro cus z z' h1 h2
    rw [List.mapM_cons] at h1
    obtain ⟨cu, hcu, h1⟩ := bind_ok h1
    obtain ⟨cus', h4, h3⟩ := bind_ok h1
    cases h3
    rw [List.foldlM_cons, hcu] at h2
    rw [List.foldl_cons]
    exact ih h4 h2

theorem den_asGuards : ∀ {us : List CUpdate} {z : F}, UpdatesOk us (dim F) →
    den (us.foldl (fun z cu => cu.applyAsGuard z) z) = {v | v ∈ den z ∧ ∀ u ∈ us, v u.clock = (u.value : ℝ)} := by
  intro us
  induction us with
  | nil => intro z _; simp
  | cons u us ih =>
    intro z hu
    obtain ⟨⟨h1, h2, h3⟩, hu⟩ := hu.cons
    rw [List.foldl_cons, ih hu]
    ext v
    simp only [CUpdate.applyAsGuard, den_constrainEq _ _ _ h1 h2, Set.mem_ofPred_eq, List.mem_cons, forall_eq_or_imp]
    tauto

theorem den_asFrees : ∀ {us : List CUpdate} {z : F}, UpdatesOk us (dim F) →
    den (us.foldl (fun z cu => cu.applyAsFree z) z) =
      {v | Valid (dim F) v ∧ ∃ w ∈ den z, ∀ i, (∀ u ∈ us, u.clock ≠ i) → v i = w i} := by
  intro us
  induction us with
  | nil =>
    intro z _
    ext v
    simp only [List.foldl_nil, Set.mem_ofPred_eq]
    refine ⟨fun h => ⟨den_valid h, v, h, fun _ _ => rfl⟩, ?_⟩
    rintro ⟨_, w, hw, he⟩
    have : v = w := funext fun i => he i (fun u hu => by cases hu)
    rw [this]; exact hw
  | cons u us ih =>
    intro z hu
    obtain ⟨⟨h1, h2, h3⟩, hu⟩ := hu.cons
    rw [List.foldl_cons, ih hu]
    ext v
    simp only [CUpdate.applyAsFree, den_free _ _ h1 h2, Set.mem_ofPred_eq]
    refine and_congr_right fun hv => ?_
    constructor
    · rintro ⟨_, ⟨w, hw, x, hx, rfl⟩, he⟩
      refine ⟨w, hw, fun i hi => ?_⟩
      rw [he i (fun u' hu' => hi u' (by simp [hu']))]
      exact assign_other _ _ (fun h => hi u (by simp) h.symm)
    · rintro ⟨w, hw, he⟩
      refine ⟨assign w u.clock (v u.clock), ⟨w, hw, v u.clock, hv.2.1 _, rfl⟩, fun i hi => ?_⟩
      by_cases hk : i = u.clock
      · subst hk; simp
      · rw [assign_other _ _ hk]
        refine he i fun u' hu' => ?_
        rcases List.mem_cons.1 hu' with rfl | hu'
        · exact fun h => hk h.symm
        · exact hi u' hu'

/-- Guards, then frees: the states that the updates take into a set. -/
theorem mem_back {us : List CUpdate} {z : F} (hu : UpdatesOk us (dim F)) (hn : NoConflict us) {v : Val} :
    v ∈ den (us.foldl (fun z cu => cu.applyAsFree z) (us.foldl (fun z cu => cu.applyAsGuard z) z)) ↔
      Valid (dim F) v ∧ runUpdates us v ∈ den z := by
  rw [den_asFrees hu, den_asGuards hu]
  simp only [Set.mem_ofPred_eq]
  refine and_congr_right fun hv => ?_
  constructor
  · rintro ⟨w, ⟨hw, hval⟩, he⟩
    have : runUpdates us v = w := by
      funext i
      by_cases h : ∃ u ∈ us, u.clock = i
      · obtain ⟨u, hu', rfl⟩ := h
        rw [runUpdates_assigned hn hu', hval u hu']
      · push Not at h
        rw [runUpdates_untouched h, he i h]
    rw [this]; exact hw
  · intro h
    refine ⟨_, ⟨h, fun u hu' => runUpdates_assigned hn hu'⟩, fun i hi => ?_⟩
    rw [runUpdates_untouched hi]

/-! ## The component being pruned -/

/-- What is assumed of the component. -/
structure PruneOk (F : Type) [ZoneLib F] (c : Component) : Prop where
  ok : c.Ok (dim F)
  agree : c.UpdatesAgree
  naming : GoodNaming c.decls.clocks
  names : (c.locations.map (·.id)).Nodup
  compiles : ∀ e ∈ c.edges, ∃ t : Transition F, Transition.fromEdge c e = .ok t

/-- Two edges that differ in the guard only. -/
def Edge.Same (e e' : Edge) : Prop := ∃ g, e' = { e with guard := g }

theorem Edge.Same.refl (e : Edge) : e.Same e := ⟨e.guard, rfl⟩

theorem Edge.Same.upd {e e' : Edge} (h : e.Same e') : e'.source = e.source ∧ e'.target = e.target ∧
    e'.sync = e.sync ∧ e'.update = e.update ∧ e'.action = e.action := by
  obtain ⟨g, rfl⟩ := h; exact ⟨rfl, rfl, rfl, rfl, rfl⟩

/-- The states allowed in the location called `n`. -/
def Component.invAt (c : Component) (n : String) : Set Val :=
  {v | ∀ l, c.locationByName n = .ok l → v ∈ condSet c.decls l.invariant}

theorem locationByName_mem {c : Component} {n : String} {l : Location} (h : c.locationByName n = .ok l) :
    l ∈ c.locations ∧ l.id = n := by
  unfold Component.locationByName at h
  split at h
  · rename_i l' h1
    cases h
    obtain ⟨h2, h3⟩ := filter_singleton_mem h1
    exact ⟨h2, of_decide_eq_true h3⟩
  · cases h

variable {c : Component}

theorem PruneOk.ups (h : PruneOk F c) {e : Edge} (he : e ∈ c.edges) :
    e.compileUpdates c.decls = .ok (e.ups c.decls) ∧ UpdatesOk (e.ups c.decls) (dim F) ∧
      NoConflict (e.ups c.decls) := by
  obtain ⟨t, ht⟩ := h.compiles e he
  have hu : e.compileUpdates c.decls = .ok t.updates := by
    unfold Transition.fromEdge at ht
    obtain ⟨_, _, ht⟩ := bind_ok ht
    obtain ⟨_, _, ht⟩ := bind_ok ht
    obtain ⟨us, h3, ht⟩ := bind_ok ht
    obtain ⟨_, _, ht⟩ := bind_ok ht
    cases ht
    exact h3
  have he' : e.ups c.decls = t.updates := by unfold Edge.ups; rw [hu]
  obtain ⟨h1, h2⟩ := fromEdge_updates h.ok he ht
  rw [he']
  exact ⟨hu, h1, h2 h.agree⟩

theorem PruneOk.inv_means (h : PruneOk F c) {n : String} {l : Location} (hl : c.locationByName n = .ok l) :
    CondMeans F c.decls l.invariant (c.invAt n) := by
  have h1 := condMeans_code (F := F) h.ok.decls (h.ok.invs l (locationByName_mem hl).1)
  have : c.invAt n = condSet c.decls l.invariant := by
    ext v
    exact ⟨fun hv => hv l hl, fun hv l' hl' => by rw [hl] at hl'; cases hl'; exact hv⟩
  rw [this]; exact h1

theorem PruneOk.guard_means (h : PruneOk F c) {e : Edge} (he : e ∈ c.edges) :
    CondMeans F c.decls e.guard (condSet c.decls e.guard) :=
  condMeans_code h.ok.decls (h.ok.guards e he)

theorem ups_same {d : Decls} {e e' : Edge} (h : e'.update = e.update) :
    e'.compileUpdates d = e.compileUpdates d ∧ e'.ups d = e.ups d := by
  have : e'.compileUpdates d = e.compileUpdates d := by unfold Edge.compileUpdates; rw [h]
  exact ⟨this, by unfold Edge.ups; rw [this]⟩

theorem asGuards_den (h : PruneOk F c) {e e' : Edge} (he : e ∈ c.edges) (hs : e'.update = e.update) {z z' : F}
    (hz : e'.asGuards c.decls z = .ok z') :
    den z' = {v | v ∈ den z ∧ ∀ u ∈ e.ups c.decls, v u.clock = (u.value : ℝ)} := by
  obtain ⟨h1, h2, _⟩ := h.ups he
  rw [← (ups_same hs).1, compileUpdates_getD] at h1
  rw [foldlM_compiled (f := fun cu z => cu.applyAsGuard z) h1 hz, den_asGuards h2]

theorem asFrees_den (h : PruneOk F c) {e e' : Edge} (he : e ∈ c.edges) (hs : e'.update = e.update) {z z' : F}
    (hz : e'.asFrees c.decls z = .ok z') :
    den z' = {v | Valid (dim F) v ∧ ∃ w ∈ den z, ∀ i, (∀ u ∈ e.ups c.decls, u.clock ≠ i) → v i = w i} := by
  obtain ⟨h1, h2, _⟩ := h.ups he
  rw [← (ups_same hs).1, compileUpdates_getD] at h1
  rw [foldlM_compiled (f := fun cu z => cu.applyAsFree z) h1 hz, den_asFrees h2]

/-- Guards, then frees. -/
theorem guards_frees_den (h : PruneOk F c) {e e' : Edge} (he : e ∈ c.edges) (hs : e'.update = e.update) {z z1 z2 : F}
    (h1 : e'.asGuards c.decls z = .ok z1) (h2 : e'.asFrees c.decls z1 = .ok z2) :
    den z2 = {v | Valid (dim F) v ∧ runUpdates (e.ups c.decls) v ∈ den z} := by
  obtain ⟨h3, h4, h5⟩ := h.ups he
  rw [← (ups_same hs).1, compileUpdates_getD] at h3
  rw [foldlM_compiled (f := fun cu z => cu.applyAsFree z) h3 h2,
    foldlM_compiled (f := fun cu z => cu.applyAsGuard z) h3 h1]
  ext v
  exact mem_back h4 h5

theorem undo_den (h : PruneOk F c) {e e' : Edge} (he : e ∈ c.edges) (hs : e'.update = e.update) {z z' : F}
    (hz : e'.undo c.decls z = .ok z') :
    den z' = {v | Valid (dim F) v ∧ runUpdates (e.ups c.decls) v ∈ den z} := by
  unfold Edge.undo at hz
  obtain ⟨z1, h1, hz⟩ := bind_ok hz
  unfold Edge.freesUnlessEmpty at hz
  split at hz
  · rename_i hemp
    cases hz
    rw [ZoneLib.isEmpty_iff] at hemp
    rw [hemp]
    obtain ⟨_, h4, h5⟩ := h.ups he
    rw [asGuards_den h he hs h1] at hemp
    ext v
    simp only [Set.mem_empty_iff_false, Set.mem_ofPred_eq, false_iff, not_and]
    intro hv hz
    have : runUpdates (e.ups c.decls) v ∈ ({v | v ∈ den z ∧ ∀ u ∈ e.ups c.decls, v u.clock = (u.value : ℝ)} : Set Val) :=
      ⟨hz, fun u hu => runUpdates_assigned h5 hu⟩
    rw [hemp] at this
    exact this
  · exact guards_frees_den h he hs h1 hz

end Reveaal
