import Verif.Lemmas.PruneRun
import Verif.Lemmas.Regions
import Verif.Lemmas.NotCut
import Verif.Lemmas.Bounds
import Verif.Spec.Termination
import Mathlib.Data.Set.Card

/-!
# The loop of pruning ends

For components whose guards and invariants compare clocks with literals, all sets the loop computes are unions of clock
regions, of which there are finitely many.  A location is put on the stack only with a set it was not on the stack with
before.
-/

namespace Reveaal
open ZoneLib
variable {F : Type} [ZoneLib F] {c : Component}

/-! ## Guards and invariants -/

theorem exists_bound {α : Type} {P : α → ℤ → Prop} (mono : ∀ a K K', K ≤ K' → P a K → P a K') :
    ∀ l : List α, (∀ a ∈ l, ∃ K, P a K) → ∃ K, 0 ≤ K ∧ ∀ a ∈ l, P a K
  | [], _ => ⟨0, le_refl _, by simp⟩
  | a :: l, h => by
    obtain ⟨K, hK, h1⟩ := exists_bound mono l fun b hb => h b (by simp [hb])
    obtain ⟨K', h2⟩ := h a (by simp)
    refine ⟨max K K', le_trans hK (le_max_left _ _), fun b hb => ?_⟩
    rcases List.mem_cons.1 hb with rfl | hb
    · exact mono _ _ _ (le_max_right _ _) h2
    · exact mono _ _ _ (le_max_left _ _) (h1 b hb)

/-- Comparing a clock with an integer, either way round. -/
theorem region_compare {n : Nat} {i : Nat} (hi : i < n) (k : ℤ) : ∃ K, 0 ≤ K ∧
    RegionSet n K {v | v i ≤ k} ∧ RegionSet n K {v | (k : ℝ) ≤ v i} :=
  ⟨max k 0, le_max_right _ _, .upper hi (le_max_left _ _), .lower hi (le_max_left _ _)⟩

theorem codeSet_region {n : Nat} {d : Decls} (hd : d.InDim n) : ∀ {g : BoolE}, g.Plain d →
    ∃ K, RegionSet n K (codeSet d g) := by
  have key : ∀ {l r : Arith} {x : String} {i : Nat} {k : Int}, ComparesClock d l r x i k → i < n := by
    intro l r x i k h
    rcases h with ⟨h, _⟩ | ⟨_, h⟩ <;> exact (hd _ h.1).2
  have cmp : ∀ (l r : Arith) (mk : Int → Ineq), (mk = .LE ∨ mk = .LS) → (∃ x i k, ComparesClock d l r x i k) →
      ∃ K, RegionSet n K (cmpSet d l r mk) := by
    rintro l r mk hmk ⟨x, i, k, hc⟩
    have hi := key hc
    refine ⟨max k 0, fun v w hv hw ha hm i' j' c hx => ?_⟩
    have hm := hm i' j' c hx
    have h1 := ha.le i hi k (le_max_left _ _)
    have h2 := ha.ge i hi k (le_max_left _ _)
    rcases getIndices_compares hc hx with ⟨h, _⟩ | ⟨h, _⟩ <;> cases h <;>
      rcases hmk with rfl | rfl <;> simp only [Ineq.Sat, hv.1, hw.1] at * <;> push_cast at *
    · have := h1.1 (by linarith); linarith
    · by_contra hn
      have := h2.2 (by linarith); linarith
    · have := h2.1 (by linarith); linarith
    · by_contra hn
      have := h1.2 (by linarith); linarith
  have flip : ∀ {l r : Arith}, (∃ x i k, ComparesClock d l r x i k) → ∃ x i k, ComparesClock d r l x i k := by
    rintro l r ⟨x, i, k, hc⟩
    exact ⟨x, i, k, hc.elim (fun h => .inr ⟨h.2, h.1⟩) (fun h => .inl ⟨h.2, h.1⟩)⟩
  intro g
  induction g with
  | and l r ihl ihr =>
    intro hp
    obtain ⟨K, h1⟩ := ihl fun p h => hp p (by simp [BoolE.comparisons, h])
    obtain ⟨K', h2⟩ := ihr fun p h => hp p (by simp [BoolE.comparisons, h])
    exact ⟨max K K', (h1.mono (le_max_left _ _)).inter (h2.mono (le_max_right _ _))⟩
  | or l r ihl ihr =>
    intro hp
    obtain ⟨K, h1⟩ := ihl fun p h => hp p (by simp [BoolE.comparisons, h])
    obtain ⟨K', h2⟩ := ihr fun p h => hp p (by simp [BoolE.comparisons, h])
    exact ⟨max K K', (h1.mono (le_max_left _ _)).union (h2.mono (le_max_right _ _))⟩
  | le l r => exact fun hp => cmp l r _ (.inl rfl) (hp (l, r) (by simp [BoolE.comparisons]))
  | ge l r => exact fun hp => cmp r l _ (.inl rfl) (flip (hp (l, r) (by simp [BoolE.comparisons])))
  | lt l r => exact fun hp => cmp l r _ (.inr rfl) (hp (l, r) (by simp [BoolE.comparisons]))
  | gt l r => exact fun hp => cmp r l _ (.inr rfl) (flip (hp (l, r) (by simp [BoolE.comparisons])))
  | eq l r =>
    intro hp
    obtain ⟨x, i, k, hc⟩ := hp (l, r) (by simp [BoolE.comparisons])
    have hi := key hc
    refine ⟨max k 0, fun v w hv hw ha hm i' j' c hx => ?_⟩
    have hm := hm i' j' c hx
    have h1 := ha.le i hi k (le_max_left _ _)
    have h2 := ha.ge i hi k (le_max_left _ _)
    rcases getIndices_compares hc hx with ⟨h, _⟩ | ⟨h, _⟩ <;> cases h <;> simp only [hv.1, hw.1] at * <;> push_cast at *
    · have := h1.1 (by linarith); have := h2.1 (by linarith); linarith
    · have := h1.1 (by linarith); have := h2.1 (by linarith); linarith
  | bool b => exact fun _ => ⟨0, fun v w _ _ _ h => h⟩

theorem condSet_region {n : Nat} {d : Decls} (hd : d.InDim n) {g : Option BoolE} (hg : ∀ b, g = some b → b.Plain d) :
    ∃ K, RegionSet n K (condSet d g) := by
  cases g with
  | none => exact ⟨0, .all⟩
  | some b => exact codeSet_region hd (hg b rfl)

/-- All conditions and updates of the component are told by the regions up to `K`. -/
structure RegionComp (F : Type) [ZoneLib F] (c : Component) (K : ℤ) : Prop where
  pos : 0 ≤ K
  guard : ∀ e ∈ c.edges, RegionSet (dim F) K (condSet c.decls e.guard)
  inv : ∀ l ∈ c.locations, RegionSet (dim F) K (condSet c.decls l.invariant)
  update : ∀ e ∈ c.edges, ∀ u ∈ e.ups c.decls, u.value ≤ K

theorem exists_regionComp (hc : c.Ok (dim F)) (hp : ∀ g, c.HasExpr g → g.Plain c.decls) :
    ∃ K, RegionComp F c K := by
  obtain ⟨K1, h1, g1⟩ := exists_bound (P := fun (e : Edge) K => RegionSet (dim F) K (condSet c.decls e.guard))
    (fun _ _ _ h => RegionSet.mono h) c.edges fun e he => condSet_region hc.decls fun b hb => hp b (.inl ⟨e, he, hb⟩)
  obtain ⟨K2, h2, g2⟩ := exists_bound (P := fun (l : Location) K => RegionSet (dim F) K (condSet c.decls l.invariant))
    (fun _ _ _ h => RegionSet.mono h) c.locations fun l hl => condSet_region hc.decls fun b hb => hp b (.inr ⟨l, hl, hb⟩)
  obtain ⟨K3, h3, g3⟩ := exists_bound (P := fun (e : Edge) K => ∀ u ∈ e.ups c.decls, u.value ≤ K)
    (fun _ _ _ h h' u hu => (h' u hu).trans h) c.edges fun e _ =>
      let ⟨K, _, h⟩ := exists_bound (P := fun (u : CUpdate) K => u.value ≤ K) (fun _ _ _ h h' => h'.trans h)
        (e.ups c.decls) fun u _ => ⟨u.value, le_refl _⟩
      ⟨K, h⟩
  refine ⟨max K1 (max K2 K3), le_trans h1 (le_max_left _ _), fun e he => (g1 e he).mono (le_max_left _ _),
    fun l hl => (g2 l hl).mono (le_trans (le_max_left _ _) (le_max_right _ _)),
    fun e he u hu => (g3 e he u hu).trans (le_trans (le_max_right _ _) (le_max_right _ _))⟩

/-! ## The steps -/

/-- The federation is a union of regions. -/
def Regional (K : ℤ) (z : F) : Prop := RegionSet (dim F) K (den z)

/-- `predt` turns unions of regions into unions of regions. -/
def PredtRegional (predt : F → F → F) : Prop :=
  ∀ K a b, 0 ≤ K → Regional K a → Regional K b → Regional K (predt a b)

variable {K : ℤ}

theorem regional_univ : Regional K (univ : F) := by unfold Regional; rw [den_univ]; exact .valid
theorem regional_empty : Regional K (empty : F) := by unfold Regional; rw [den_empty]; exact .none

theorem Regional.append {a b : F} (ha : Regional K a) (hb : Regional K b) : Regional K (append a b) := by
  unfold Regional; rw [den_append]; exact ha.union hb

theorem Regional.inter {a b : F} (ha : Regional K a) (hb : Regional K b) : Regional K (inter a b) := by
  unfold Regional; rw [den_inter]; exact RegionSet.inter ha hb

theorem Regional.subtraction {a b : F} (ha : Regional K a) (hb : Regional K b) : Regional K (subtraction a b) := by
  unfold Regional; rw [den_subtraction]; exact ha.without hb

theorem Regional.down {a : F} (hK : 0 ≤ K) (ha : Regional K a) : Regional K (down a) := by
  unfold Regional; rw [den_down]; exact RegionSet.down dim_pos hK ha

theorem Regional.cond {a b : F} {S : Set Val} (ha : Regional K a) (hS : RegionSet (dim F) K S) (h : den b = den a ∩ S) :
    Regional K b := by
  unfold Regional; rw [h]; exact RegionSet.inter ha hS

theorem Regional.asGuard {a : F} (ha : Regional K a) {u : CUpdate} (h1 : 0 < u.clock) (h2 : u.clock < dim F)
    (h3 : u.value ≤ K) : Regional K (u.applyAsGuard a) := by
  unfold Regional CUpdate.applyAsGuard
  rw [den_constrainEq _ _ _ h1 h2]
  rintro v w hv hw hl ⟨hm, he⟩
  exact ⟨ha v w hv hw hl hm, le_antisymm ((hl.le _ h2 _ h3).1 he.le) ((hl.ge _ h2 _ h3).1 he.ge)⟩

theorem Regional.asFree {a : F} (hK : 0 ≤ K) (ha : Regional K a) {u : CUpdate} (h1 : 0 < u.clock) (h2 : u.clock < dim F) :
    Regional K (u.applyAsFree a) := by
  unfold Regional CUpdate.applyAsFree
  rw [den_free _ _ h1 h2]
  exact RegionSet.free ha hK (fun _ => den_valid) h1 h2

theorem regional_asGuards (hc : PruneOk F c) (hr : RegionComp F c K) {e e' : Edge} (he : e ∈ c.edges)
    (hs : e'.update = e.update) {z z' : F} (hz : Regional K z) (h : e'.asGuards c.decls z = .ok z') : Regional K z' := by
  obtain ⟨h1, h2, _⟩ := hc.ups he
  rw [← (ups_same hs).1, compileUpdates_getD] at h1
  rw [foldlM_compiled (f := fun cu z => cu.applyAsGuard z) h1 h]
  have hv := hr.update e he
  generalize e.ups c.decls = us at h2 hv
  clear h h1
  induction us generalizing z with
  | nil => exact hz
  | cons u us ih =>
    obtain ⟨⟨q1, q2, q3⟩, h2⟩ := h2.cons
    exact ih (hz.asGuard q1 q2 (hv u (by simp))) h2 fun u hu => hv u (by simp [hu])

theorem regional_asFrees (hc : PruneOk F c) (hr : RegionComp F c K) {e e' : Edge} (he : e ∈ c.edges)
    (hs : e'.update = e.update) {z z' : F} (hz : Regional K z) (h : e'.asFrees c.decls z = .ok z') : Regional K z' := by
  obtain ⟨h1, h2, _⟩ := hc.ups he
  rw [← (ups_same hs).1, compileUpdates_getD] at h1
  rw [foldlM_compiled (f := fun cu z => cu.applyAsFree z) h1 h]
  generalize e.ups c.decls = us at h2
  clear h h1
  induction us generalizing z with
  | nil => exact hz
  | cons u us ih =>
    obtain ⟨⟨q1, q2, q3⟩, h2⟩ := h2.cons
    exact ih (hz.asFree hr.pos q1 q2) h2

theorem regional_frees (hc : PruneOk F c) (hr : RegionComp F c K) {e e' : Edge} (he : e ∈ c.edges)
    (hs : e'.update = e.update) {z z' : F} (hz : Regional K z) (h : e'.freesUnlessEmpty c.decls z = .ok z') :
    Regional K z' := by
  unfold Edge.freesUnlessEmpty at h
  split at h
  · cases h; exact hz
  · exact regional_asFrees hc hr he hs hz h

theorem regional_undo (hc : PruneOk F c) (hr : RegionComp F c K) {e e' : Edge} (he : e ∈ c.edges)
    (hs : e'.update = e.update) {z z' : F} (hz : Regional K z) (h : e'.undo c.decls z = .ok z') : Regional K z' := by
  unfold Edge.undo at h
  obtain ⟨z1, h1, h⟩ := bind_ok h
  exact regional_frees hc hr he hs (regional_asGuards hc hr he hs hz h1) h

theorem regional_restrict (hc : PruneOk F c) (hr : RegionComp F c K) {m : String} {l : Location}
    (hl : c.locationByName m = .ok l) {z z' : F} (hz : Regional K z) (h : l.restrict c.decls z = .ok z') :
    Regional K z' :=
  hz.cond (hr.inv l (locationByName_mem hl).1)
    (restrict_den (condMeans_code hc.ok.decls (hc.ok.invs l (locationByName_mem hl).1)) h)

namespace PruneCtx

/-- What was found and the guards that are left are unions of regions. -/
structure InRegions (F : Type) [ZoneLib F] (c : Component) (K : ℤ) (x : PruneCtx F) : Prop where
  parts : ∀ m z, x.parts.lookup m = some z → Regional K z
  edges : ∀ e' ∈ x.comp.edges, ∃ S, CondMeans F c.decls e'.guard S ∧ RegionSet (dim F) K S
  passed : ∀ p ∈ x.passed, Regional K p.2 ∧ p.1 ∈ c.edges.map (·.source)
  once : (x.passed.map fun p => (p.1, den p.2)).Nodup

/-- As many locations were put on the stack as were recorded. -/
def Counts (x x' : PruneCtx F) : Prop := x'.locs.length + x.passed.length = x.locs.length + x'.passed.length

omit [ZoneLib F] in
theorem Counts.trans {x y z : PruneCtx F} (h : x.Counts y) (h' : y.Counts z) : x.Counts z := by
  unfold Counts at *; omega

omit [ZoneLib F] in
theorem Counts.refl (x : PruneCtx F) : x.Counts x := rfl

theorem InRegions.without {x : PruneCtx F} (h : x.InRegions F c K) {m : String} {z : F} (hz : Regional K z) :
    Regional K (withoutPart (x.parts.lookup m) z) := by
  unfold withoutPart
  split
  · rename_i i hi; exact hz.subtraction (h.parts m i hi)
  · exact hz

theorem InRegions.getIncons {x : PruneCtx F} (h : x.InRegions F c K) {m : String} {z : F}
    (hz : x.getIncons m = .ok z) : Regional K z := by
  unfold PruneCtx.getIncons at hz
  split at hz
  · rename_i i hi; cases hz; exact h.parts m _ hi
  · cases hz

theorem InRegions.removeEdge {x : PruneCtx F} (h : x.InRegions F c K) (e : Edge) : (x.removeEdge e).InRegions F c K :=
  ⟨h.parts, fun e' he' => h.edges e' (List.mem_of_mem_erase he'), h.passed, h.once⟩

theorem InRegions.updateGuard (hc : PruneOk F c) {x x' : PruneCtx F} (hf : x.Fine c) (h : x.InRegions F c K) {e : Edge}
    {z : F} (hz : Regional K z) (hu : x.updateGuard e z = .ok x') : x'.InRegions F c K ∧ x.Counts x' := by
  unfold PruneCtx.updateGuard at hu
  split at hu
  · obtain ⟨g, hg, hu⟩ := bind_ok hu
    cases hu
    rw [hf.decls] at hg
    refine ⟨⟨h.parts, fun e' he' => ?_, h.passed, h.once⟩, rfl⟩
    rcases mem_replaceGuard he' with he' | rfl
    · exact h.edges e' he'
    · exact ⟨den z, condMeans_generated hc.ok.decls hc.naming hg, hz⟩
  · cases hu
    exact ⟨h, rfl⟩

theorem InRegions.processSource {x : PruneCtx F} (h : x.InRegions F c K) {m : String}
    (hm : m ∈ c.edges.map (·.source)) {z : F} (hz : Regional K z) :
    (x.processSource m z).InRegions F c K ∧ x.Counts (x.processSource m z) := by
  unfold PruneCtx.processSource
  split
  · exact ⟨h, rfl⟩
  · dsimp only
    generalize hz1 : unionPart (x.parts.lookup m) z = z1
    have hr1 : Regional K z1 := by
      rw [← hz1]
      unfold unionPart
      split
      · rename_i i hi; exact hz.append (h.parts m i hi)
      · exact hz
    have hparts : ∀ k z', (hmInsert m z1 x.parts).lookup k = some z' → Regional K z' := by
      intro k z' hk
      rw [lookup_hmInsert] at hk
      split at hk
      · cases hk; exact hr1
      · exact h.parts k z' hk
    split
    · exact ⟨⟨hparts, h.edges, h.passed, h.once⟩, rfl⟩
    · rename_i hany
      refine ⟨⟨hparts, h.edges, fun p hp => ?_, ?_⟩, ?_⟩
      · rcases List.mem_append.1 hp with hp | hp
        · exact h.passed p hp
        · obtain rfl := List.mem_singleton.1 hp
          exact ⟨hr1, hm⟩
      · rw [List.map_append, List.nodup_append]
        refine ⟨h.once, by simp, ?_⟩
        intro a ha b hb hab
        obtain ⟨p, hp, rfl⟩ := List.mem_map.1 ha
        obtain rfl := List.mem_singleton.1 hb
        simp only [Prod.mk.injEq] at hab
        apply hany
        rw [List.any_eq_true]
        exact ⟨p, hp, by simp only [Bool.and_eq_true, decide_eq_true_eq]; exact ⟨hab.1, (equals_iff _ _).2 hab.2⟩⟩
      · unfold Counts
        simp only [List.length_cons, List.length_append, List.length_nil]
        omega

theorem InRegions.guard (hr : RegionComp F c K) (hc : PruneOk F c) {e : Edge} (he : e ∈ c.edges) {z z' : F}
    (hz : Regional K z) (h : e.applyGuard c.decls z = .ok z') : Regional K z' :=
  hz.cond (hr.guard e he) (applyGuard_den (hc.guard_means he) h)

theorem InRegions.guard' {x : PruneCtx F} (h : x.InRegions F c K) {e : Edge} (he : e ∈ x.comp.edges) {z z' : F}
    (hz : Regional K z) (hg : e.applyGuard c.decls z = .ok z') : Regional K z' := by
  obtain ⟨S, h1, h2⟩ := h.edges e he
  exact hz.cond h2 (applyGuard_den h1 hg)

theorem InRegions.predtOutputs (hc : PruneOk F c) (hr : RegionComp F c K) {predt : F → F → F}
    (hp : PredtRegional predt) {x : PruneCtx F} (hf : x.Fine c) (h : x.InRegions F c K) {m : String} {l : Location}
    (hl : c.locationByName m = .ok l) : ∀ {os : List Edge} {z z' : F}, (∀ o ∈ os, o ∈ x.comp.edges) →
    Regional K z → os.foldlM (x.predtOutput predt l) z = .ok z' → Regional K z' := by
  intro os
  induction os with
  | nil => intro z z' _ hz h; cases h; exact hz
  | cons o os ih =>
    intro z z' hos hz hq
    rw [List.foldlM_cons] at hq
    obtain ⟨z1, h1, hq⟩ := bind_ok hq
    refine ih (fun o ho => hos o (by simp [ho])) ?_ hq
    unfold predtOutput at h1
    obtain ⟨t, g1, h1⟩ := bind_ok h1
    obtain ⟨y1, g2, h1⟩ := bind_ok h1
    obtain ⟨y2, g3, h1⟩ := bind_ok h1
    obtain ⟨y3, g4, h1⟩ := bind_ok h1
    obtain ⟨y4, g5, h1⟩ := bind_ok h1
    obtain ⟨y5, g6, h1⟩ := bind_ok h1
    cases h1
    rw [hf.loc] at g1
    rw [hf.decls] at g2 g4 g5 g6
    have ho := hos o (by simp)
    obtain ⟨e, he, hsame, _⟩ := hf.edges o ho
    have r1 := regional_restrict hc hr g1 regional_univ g2
    have r2 : Regional K y2 := by
      unfold safePart at g3
      split at g3
      · obtain ⟨b, hb, g3⟩ := bind_ok g3
        cases g3
        exact r1.subtraction (h.getIncons hb)
      · cases g3; exact r1
    have r3 := regional_frees hc hr he hsame.upd.2.2.2.1 r2 g4
    exact hz.append (hp K _ _ hr.pos hz (regional_restrict hc hr hl (h.guard' ho r3 g5) g6))

theorem InRegions.handleInput (hc : PruneOk F c) (hr : RegionComp F c K) {predt : F → F → F}
    (hp : PredtRegional predt) {x x' : PruneCtx F} (hf : x.Fine c) (h : x.InRegions F c K) {e : Edge}
    (he : e ∈ c.edges) (hq : x.handleInput predt e = .ok x') : x'.InRegions F c K ∧ x.Counts x' := by
  unfold PruneCtx.handleInput at hq
  obtain ⟨t, h1, hq⟩ := bind_ok hq
  obtain ⟨bad, h2, hq⟩ := bind_ok hq
  obtain ⟨z1, h3, hq⟩ := bind_ok hq
  obtain ⟨z2, h4, hq⟩ := bind_ok hq
  rw [hf.loc] at h1
  rw [hf.decls] at h3 h4
  have r2 := regional_asGuards hc hr he rfl (regional_restrict hc hr h1 (h.getIncons h2) h3) h4
  split at hq
  · cases hq; exact ⟨h, rfl⟩
  · obtain ⟨z3, h5, hq⟩ := bind_ok hq
    obtain ⟨x1, h6, hq⟩ := bind_ok hq
    have r3 : Regional K z3 := by
      unfold backThrough at h5
      obtain ⟨z4, h7, h5⟩ := bind_ok h5
      obtain ⟨z5, h8, h5⟩ := bind_ok h5
      obtain ⟨s, h9, h5⟩ := bind_ok h5
      rw [hf.decls] at h7 h8 h5
      rw [hf.loc] at h9
      exact regional_restrict hc hr h9 (InRegions.guard hr hc he (regional_asFrees hc hr he rfl r2 h7) h8) h5
    have r4 : x1.InRegions F c K ∧ x.Counts x1 := by
      unfold spoilSource at h6
      split at h6
      · cases h6; exact ⟨h, rfl⟩
      · obtain ⟨y1, g1, h6⟩ := bind_ok h6
        obtain ⟨y2, g2, h6⟩ := bind_ok h6
        cases h6
        have q1 : Regional K y1 := h.predtOutputs hc hr hp hf h1 (fun o ho => (List.mem_filter.1 ho).1) r3 g1
        have q2 : Regional K y2 := by
          unfold pastIfSame at g2
          split at g2
          · obtain ⟨s, hs, g2⟩ := bind_ok g2
            rw [hf.loc] at hs
            rw [hf.decls] at g2
            exact regional_restrict hc hr hs (q1.down hr.pos) g2
          · cases g2; exact q1
        exact h.processSource (List.mem_map.2 ⟨e, he, rfl⟩) q2
    have : x' = x1 ∨ x' = x1.removeEdge e := by
      unfold removeIfUnsat at hq
      obtain ⟨_, _, hq⟩ := bind_ok hq
      obtain ⟨_, _, hq⟩ := bind_ok hq
      obtain ⟨_, _, hq⟩ := bind_ok hq
      obtain ⟨_, _, hq⟩ := bind_ok hq
      obtain ⟨_, _, hq⟩ := bind_ok hq
      obtain ⟨_, _, hq⟩ := bind_ok hq
      split at hq <;> cases hq
      · exact .inr rfl
      · exact .inl rfl
    rcases this with rfl | rfl
    · exact r4
    · exact ⟨r4.1.removeEdge e, r4.2⟩

theorem InRegions.cutEdge (hc : PruneOk F c) (hr : RegionComp F c K) {x x' : PruneCtx F} (hf : x.Fine c)
    (h : x.InRegions F c K) {e : Edge} (he : e ∈ c.edges) (hq : x.cutEdge e = .ok x') :
    x'.InRegions F c K ∧ x.Counts x' := by
  unfold PruneCtx.cutEdge at hq
  obtain ⟨bad, h1, hq⟩ := bind_ok hq
  split at hq
  · cases hq; exact ⟨h.removeEdge e, rfl⟩
  · obtain ⟨bad', h2, hq⟩ := bind_ok hq
    obtain ⟨g, h3, hq⟩ := bind_ok hq
    dsimp only at hq
    rw [hf.decls] at h2 h3
    split at hq
    · cases hq; exact ⟨h.removeEdge e, rfl⟩
    · exact h.updateGuard hc hf ((InRegions.guard hr hc he regional_univ h3).subtraction
        (regional_undo hc hr he rfl (h.getIncons h1) h2)) hq

theorem InRegions.stuckSource (hc : PruneOk F c) (hr : RegionComp F c K) {x x' : PruneCtx F} (hf : x.Fine c)
    (h : x.InRegions F c K) {e : Edge} (he : e ∈ c.edges) (hq : x.stuckSource e = .ok x') :
    x'.InRegions F c K ∧ x.Counts x' := by
  unfold PruneCtx.stuckSource at hq
  obtain ⟨s, h1, hq⟩ := bind_ok hq
  obtain ⟨inv, h2, hq⟩ := bind_ok hq
  rw [hf.loc] at h1
  rw [hf.decls] at h2
  have rinv := regional_restrict hc hr h1 regional_univ h2
  split at hq
  · cases hq; exact ⟨h, rfl⟩
  · obtain ⟨saved, h3, hq⟩ := bind_ok hq
    cases hq
    refine h.processSource (List.mem_map.2 ⟨e, he, rfl⟩) (rinv.subtraction ?_)
    have hos : ∀ o ∈ x.outputsFrom e.source, o ∈ x.comp.edges := fun o ho => (List.mem_filter.1 ho).1
    generalize x.outputsFrom e.source = os at h3 hos
    have h0 : Regional K (empty : F) := regional_empty
    generalize (empty : F) = z at h3 h0
    induction os generalizing z with
    | nil => cases h3; exact h0
    | cons o os ih =>
      rw [List.foldlM_cons] at h3
      obtain ⟨z1, g1, h3⟩ := bind_ok h3
      obtain ⟨y, g2, g1⟩ := bind_ok g1
      cases g1
      refine ih (fun o ho => hos o (by simp [ho])) _ h3 (h0.append ?_)
      unfold saves at g2
      obtain ⟨t, h4, g2⟩ := bind_ok g2
      obtain ⟨z2, h5, g2⟩ := bind_ok g2
      obtain ⟨z3, h6, g2⟩ := bind_ok g2
      obtain ⟨z4, h7, g2⟩ := bind_ok g2
      cases g2
      rw [hf.loc] at h4
      rw [hf.decls] at h5 h6 h7
      have ho := hos o (by simp)
      obtain ⟨e0, he0, hsame, _⟩ := hf.edges o ho
      exact ((h.guard' ho (regional_undo hc hr he0 hsame.upd.2.2.2.1
        (h.without (regional_restrict hc hr h4 regional_univ h5)) h6) h7).down hr.pos).inter rinv

theorem InRegions.handleEdge (hc : PruneOk F c) (hr : RegionComp F c K) {predt : F → F → F}
    (hp : PredtRegional predt) {x x' : PruneCtx F} (hf : x.Fine c) (h : x.InRegions F c K) {e : Edge}
    (he : e ∈ c.edges) (hq : x.handleEdge predt e = .ok x') : x'.InRegions F c K ∧ x.Counts x' := by
  unfold PruneCtx.handleEdge handleIfInput handleOutput at hq
  obtain ⟨x1, h1, hq⟩ := bind_ok hq
  obtain ⟨x2, h2, hq⟩ := bind_ok hq
  have s1 : x1.Fine c ∧ x1.InRegions F c K ∧ x.Counts x1 := by
    split at h1
    · exact ⟨(handleInput_spec hc hf he h1).1, h.handleInput hc hr hp hf he h1⟩
    · cases h1; exact ⟨hf, h, rfl⟩
  obtain ⟨f1, r1, c1⟩ := s1
  obtain ⟨f2, _⟩ := cutEdge_spec hc f1 he h2
  obtain ⟨r2, c2⟩ := r1.cutEdge hc hr f1 he h2
  obtain ⟨r3, c3⟩ := r2.stuckSource hc hr f2 he hq
  exact ⟨r3, (c1.trans c2).trans c3⟩

theorem InRegions.handleEdges (hc : PruneOk F c) (hr : RegionComp F c K) {predt : F → F → F}
    (hp : PredtRegional predt) : ∀ {es : List Edge} {x x' : PruneCtx F}, (∀ e ∈ es, e ∈ c.edges) → x.Fine c →
    x.InRegions F c K → es.foldlM (PruneCtx.handleEdge predt) x = .ok x' →
    x'.Fine c ∧ x'.InRegions F c K ∧ x.Counts x' := by
  intro es
  induction es with
  | nil => intro x x' _ hf h hq; cases hq; exact ⟨hf, h, rfl⟩
  | cons e es ih =>
    intro x x' hes hf h hq
    rw [List.foldlM_cons] at hq
    obtain ⟨x1, h1, hq⟩ := bind_ok hq
    obtain ⟨f1, _⟩ := handleEdge_spec hc hf (hes e (by simp)) h1
    obtain ⟨r1, c1⟩ := h.handleEdge hc hr hp hf (hes e (by simp)) h1
    obtain ⟨f2, r2, c2⟩ := ih (fun e he => hes e (by simp [he])) f1 r1 hq
    exact ⟨f2, r2, c1.trans c2⟩

/-! ## Nothing but the loop runs out of steps -/

theorem locationByName_notCut (c : Component) (m : String) : NotCut (c.locationByName m) := by
  unfold Component.locationByName; notcut

theorem restrict_notCut (l : Location) (d : Decls) (z : F) : NotCut (l.restrict d z) := by
  unfold Location.restrict
  split
  · exact orPanic_notCut (applyConstraints_notCut _ _ _)
  · exact .ok _

theorem applyGuard_notCut (e : Edge) (d : Decls) (z : F) : NotCut (e.applyGuard d z) := by
  unfold Edge.applyGuard
  split
  · exact orPanic_notCut (applyConstraints_notCut _ _ _)
  · exact .ok _

theorem foldlM_notCut {α β : Type} {f : β → α → Res β} (hf : ∀ b a, NotCut (f b a)) :
    ∀ (l : List α) (b : β), NotCut (l.foldlM f b)
  | [], b => by rw [List.foldlM_nil]; exact .ok _
  | a :: l, b => by rw [List.foldlM_cons]; exact (hf b a).bind fun b' => foldlM_notCut hf l b'

theorem cupdate_notCut (d : Decls) (u : Update) : NotCut (CUpdate.compile d u) := by
  unfold CUpdate.compile; notcut

theorem asGuards_notCut (e : Edge) (d : Decls) (z : F) : NotCut (e.asGuards d z) :=
  foldlM_notCut (fun _ _ => (cupdate_notCut _ _).bind fun _ => .ok _) _ _

theorem asFrees_notCut (e : Edge) (d : Decls) (z : F) : NotCut (e.asFrees d z) :=
  foldlM_notCut (fun _ _ => (cupdate_notCut _ _).bind fun _ => .ok _) _ _

theorem freesUnlessEmpty_notCut (e : Edge) (d : Decls) (z : F) : NotCut (e.freesUnlessEmpty d z) := by
  unfold Edge.freesUnlessEmpty
  split
  · exact .ok _
  · exact asFrees_notCut _ _ _

theorem undo_notCut (e : Edge) (d : Decls) (z : F) : NotCut (e.undo d z) :=
  (asGuards_notCut _ _ _).bind fun _ => freesUnlessEmpty_notCut _ _ _

omit [ZoneLib F] in
theorem getIncons_notCut (x : PruneCtx F) (m : String) : NotCut (x.getIncons m) := by
  unfold PruneCtx.getIncons; notcut

end PruneCtx
end Reveaal
