import Verif.Lemmas.PruneEnds
import Verif.Lemmas.Terminate
import Verif.Props.C59Saving
import Verif.Props.C69

/-!
# C69 Pruning ends

The loop of `prune` puts a location back on its stack whenever more of it was found inconsistent.  It ends for every
component whose guards and invariants compare clocks with literals.
-/

namespace Reveaal
open ZoneLib
variable {F : Type} [ZoneLib F] {c : Component} {K : ℤ}

namespace PruneCtx

theorem removeIfUnsat_notCut (x : PruneCtx F) (e : Edge) : NotCut (x.removeIfUnsat e) :=
  (locationByName_notCut _ _).bind fun _ => (restrict_notCut _ _ _).bind fun _ => (undo_notCut _ _ _).bind fun _ =>
    (applyGuard_notCut _ _ _).bind fun _ => (locationByName_notCut _ _).bind fun _ =>
    (restrict_notCut _ _ _).bind fun _ => by split <;> exact .ok _

theorem safePart_notCut (x : PruneCtx F) (m : String) (z : F) : NotCut (x.safePart m z) := by
  unfold safePart
  split
  · exact (getIncons_notCut _ _).bind fun _ => .ok _
  · exact .ok _

theorem predtOutputs_notCut (predt : F → F → F) (x : PruneCtx F) (l : Location) (z : F) :
    NotCut (x.predtOutputs predt l z) :=
  foldlM_notCut (fun _ _ => (locationByName_notCut _ _).bind fun _ => (restrict_notCut _ _ _).bind fun _ =>
    (safePart_notCut _ _ _).bind fun _ => (freesUnlessEmpty_notCut _ _ _).bind fun _ =>
    (applyGuard_notCut _ _ _).bind fun _ => (restrict_notCut _ _ _).bind fun _ => .ok _) _ _

theorem handleInput_notCut (predt : F → F → F) (x : PruneCtx F) (e : Edge) : NotCut (x.handleInput predt e) := by
  unfold PruneCtx.handleInput
  refine (locationByName_notCut _ _).bind fun t => (getIncons_notCut _ _).bind fun _ =>
    (restrict_notCut _ _ _).bind fun _ => (asGuards_notCut _ _ _).bind fun _ => ?_
  split
  · exact .ok _
  · refine NotCut.bind ?_ fun z => NotCut.bind ?_ fun _ => removeIfUnsat_notCut _ _
    · exact (asFrees_notCut _ _ _).bind fun _ => (applyGuard_notCut _ _ _).bind fun _ =>
        (locationByName_notCut _ _).bind fun _ => restrict_notCut _ _ _
    · unfold spoilSource
      split
      · exact .ok _
      · refine (predtOutputs_notCut _ _ _ _).bind fun _ => NotCut.bind ?_ fun _ => .ok _
        unfold pastIfSame
        split
        · exact (locationByName_notCut _ _).bind fun _ => restrict_notCut _ _ _
        · exact .ok _

theorem cutEdge_notCut (x : PruneCtx F) (e : Edge) : NotCut (x.cutEdge e) := by
  unfold PruneCtx.cutEdge
  refine (getIncons_notCut _ _).bind fun _ => ?_
  split
  · exact .ok _
  · refine (undo_notCut _ _ _).bind fun _ => (applyGuard_notCut _ _ _).bind fun _ => ?_
    dsimp only
    split
    · exact .ok _
    · unfold PruneCtx.updateGuard
      split
      · exact (fromDisjunction_notCut _ _).bind fun _ => .ok _
      · exact .ok _

theorem stuckSource_notCut (x : PruneCtx F) (e : Edge) : NotCut (x.stuckSource e) := by
  unfold PruneCtx.stuckSource
  refine (locationByName_notCut _ _).bind fun _ => (restrict_notCut _ _ _).bind fun _ => ?_
  split
  · exact .ok _
  · refine NotCut.bind (foldlM_notCut (fun _ _ => NotCut.bind ?_ fun _ => .ok _) _ _) fun _ => .ok _
    exact (locationByName_notCut _ _).bind fun _ => (restrict_notCut _ _ _).bind fun _ =>
      (undo_notCut _ _ _).bind fun _ => (applyGuard_notCut _ _ _).bind fun _ => .ok _

theorem handleEdge_notCut (predt : F → F → F) (x : PruneCtx F) (e : Edge) : NotCut (x.handleEdge predt e) := by
  unfold PruneCtx.handleEdge handleIfInput handleOutput
  refine NotCut.bind ?_ fun _ => (cutEdge_notCut _ _).bind fun _ => stuckSource_notCut _ _
  split
  · exact handleInput_notCut _ _ _
  · exact .ok _

/-! ## The loop -/

theorem loop_mono (predt : F → F → F) (c : Component) : ∀ (fuel : Nat) (x : PruneCtx F),
    Below (loop predt c fuel x) (loop predt c (fuel + 1) x)
  | 0, ⟨_, [], _, _⟩ => .refl _
  | 0, ⟨_, _ :: _, _, _⟩ => .cut _
  | fuel + 1, ⟨_, [], _, _⟩ => .refl _
  | fuel + 1, ⟨_, _ :: _, _, _⟩ => by
    rw [loop, loop]
    exact (Below.refl _).bind fun x => loop_mono predt c fuel x

/-- Not more can be recorded than there are locations with sets of regions. -/
theorem InRegions.bounded (c : Component) (K : ℤ) :
    ∃ N, ∀ x : PruneCtx F, x.InRegions F c K → x.passed.length ≤ N := by
  classical
  have hfin : ((↑(c.edges.map (·.source)).toFinset : Set String) ×ˢ
      {S : Set Val | (∀ v ∈ S, Valid (dim F) v) ∧ RegionSet (dim F) K S}).Finite :=
    (Finset.finite_toSet _).prod (regionSets_finite dim_pos K)
  refine ⟨hfin.toFinset.card, fun x hx => ?_⟩
  rw [← List.length_map (f := fun p : String × F => (p.1, den p.2)), ← List.toFinset_card_of_nodup hx.once]
  refine Finset.card_le_card fun q hq => ?_
  obtain ⟨p, hp, rfl⟩ := List.mem_map.1 (List.mem_toFinset.1 hq)
  obtain ⟨h1, h2⟩ := hx.passed p hp
  rw [Set.Finite.mem_toFinset]
  exact ⟨by simpa using h2, fun v hv => den_valid hv, h1⟩

theorem loop_ends (hc : PruneOk F c) (hr : RegionComp F c K) {predt : F → F → F} (hp : PredtRegional predt) {N : Nat}
    (hN : ∀ x : PruneCtx F, x.InRegions F c K → x.passed.length ≤ N) : ∀ (fuel : Nat) (x : PruneCtx F), x.Fine c →
    x.InRegions F c K → x.locs.length + (N - x.passed.length) ≤ fuel → NotCut (loop predt c fuel x) := by
  intro fuel
  induction fuel with
  | zero =>
    rintro ⟨comp, locs, parts, passed⟩ _ _ hle
    cases locs with
    | nil => exact .ok _
    | cons n locs => dsimp only at hle; rw [List.length_cons] at hle; omega
  | succ fuel ih =>
    rintro ⟨comp, locs, parts, passed⟩ hf hi hle
    cases locs with
    | nil => exact .ok _
    | cons n locs =>
      unfold loop
      have hf' : (⟨comp, locs, parts, passed⟩ : PruneCtx F).Fine c := ⟨hf.comp, hf.edges, hf.passed⟩
      have hi' : (⟨comp, locs, parts, passed⟩ : PruneCtx F).InRegions F c K := ⟨hi.parts, hi.edges, hi.passed, hi.once⟩
      have hnc : NotCut ((c.edges.filter fun e => decide (e.target = n)).foldlM (PruneCtx.handleEdge predt)
          (⟨comp, locs, parts, passed⟩ : PruneCtx F)) := foldlM_notCut (handleEdge_notCut predt) _ _
      generalize hg : (c.edges.filter fun e => decide (e.target = n)).foldlM (PruneCtx.handleEdge predt)
          (⟨comp, locs, parts, passed⟩ : PruneCtx F) = r at hnc
      cases r with
      | error e => exact fun h => hnc (by cases h; rfl)
      | ok x1 =>
        obtain ⟨f1, r1, c1⟩ := hi'.handleEdges hc hr hp (fun e he => (List.mem_filter.1 he).1) hf' hg
        refine ih x1 f1 r1 ?_
        have h1 := hN x1 r1
        have h2 := hN _ hi'
        unfold Counts at c1
        dsimp only at c1 h2 hle
        rw [List.length_cons] at hle
        omega

end PruneCtx

theorem addParts_notCut (parts : List (String × F)) (c : Component) : NotCut (addParts parts c) := by
  unfold addParts
  refine (NotCut.mapM (fun l => ?_) _).bind fun _ => .ok _
  unfold Location.withoutPart
  split
  · exact .ok _
  · exact (PruneCtx.restrict_notCut _ _ _).bind fun _ => (fromDisjunction_notCut _ _).bind fun _ => .ok _

theorem pruneWork_ends (hc : PruneOk F c) (hpl : ∀ g, c.HasExpr g → g.Plain c.decls) {predt : F → F → F}
    (hp : PredtRegional predt) (bad : List String) : Terminates fun n => pruneWork predt n bad c := by
  obtain ⟨K, hr⟩ := exists_regionComp hc.ok hpl
  obtain ⟨N, hN⟩ := PruneCtx.InRegions.bounded (F := F) c K
  let x0 : PruneCtx F := ⟨c, bad.reverse, bad.foldl (fun m n => hmInsert n (univ : F) m) [], []⟩
  have hf : x0.Fine c := ⟨rfl, fun e he => ⟨e, he, .refl e, _, hc.guard_means he, fun _ h => h⟩, by rintro p ⟨⟩⟩
  have hi : x0.InRegions F c K := by
    refine ⟨fun m z hz => ?_, fun e he => ⟨_, hc.guard_means he, hr.guard e he⟩, by rintro p ⟨⟩, List.nodup_nil⟩
    have : ∀ (bad : List String) (l : List (String × F)), (∀ m z, l.lookup m = some z → Regional K z) →
        ∀ m z, (bad.foldl (fun m n => hmInsert n (univ : F) m) l).lookup m = some z → Regional K z := by
      intro bad
      induction bad with
      | nil => intro l h; exact h
      | cons b bad ih =>
        intro l h
        rw [List.foldl_cons]
        refine ih _ fun m z hz => ?_
        rw [lookup_hmInsert] at hz
        split at hz
        · cases hz; exact regional_univ
        · exact h m z hz
    exact this bad [] (fun m z h => by cases h) m z hz
  have hm : ∀ n, Below (pruneWork predt n bad c) (pruneWork predt (n + 1) bad c) := fun n =>
    (PruneCtx.loop_mono predt c n x0).bind fun _ => .refl _
  have hN' : NotCut (pruneWork predt (bad.reverse.length + N) bad c) :=
    (PruneCtx.loop_ends hc hr hp hN _ x0 hf hi (by dsimp only [x0]; simp)).bind fun _ => addParts_notCut _ _
  exact ⟨_, _, hN', fun n hn => settled hm hN' n hn⟩

/-! ## What is assumed of `predt` -/

/-- What `predt` of the zone library computes: the states from which time leads into the first set, and the second is
not met before. -/
def PredtIs (predt : F → F → F) : Prop := ∀ a b v, v ∈ den (predt a b) ↔
  Valid (dim F) v ∧ ∃ d : ℝ, 0 ≤ d ∧ delay (dim F) v d ∈ den a ∧ ∀ e : ℝ, 0 ≤ e → e < d → delay (dim F) v e ∉ den b

theorem PredtIs.regional {predt : F → F → F} (h : PredtIs predt) : PredtRegional predt := by
  intro K a b hK ha hb
  have := RegionSet.past dim_pos hK ha hb
  intro v w hv hw hl hm
  exact (h a b w).2 (this v w hv hw hl ((h a b v).1 hm))

/-- The same, the second set not being met when the first is reached either. -/
def PredtIsStrict (predt : F → F → F) : Prop := ∀ a b v, v ∈ den (predt a b) ↔
  Valid (dim F) v ∧ ∃ d : ℝ, 0 ≤ d ∧ delay (dim F) v d ∈ den a ∧ ∀ e : ℝ, 0 ≤ e → e ≤ d → delay (dim F) v e ∉ den b

theorem PredtIsStrict.regional {predt : F → F → F} (h : PredtIsStrict predt) : PredtRegional predt := by
  intro K a b hK ha hb
  have := RegionSet.past' dim_pos hK ha hb
  intro v w hv hw hl hm
  exact (h a b w).2 (this v w hv hw hl ((h a b v).1 hm))

/-- The states from which time leads into `a` without meeting the zone `k`. -/
def predtZone (a : F) (k : Conj) : F :=
  let b := ZoneLib.fromDisjunction [k]
  append (subtraction (down a) (down b)) (down (subtraction (inter a (down b)) b))

/-- A function of this kind, made of other operations of the library. -/
def predtOf (a b : F) : F := (minimal b).foldl (fun z k => inter z (predtZone a k)) (down a)

theorem mem_predtZone {a : F} {k : Conj} (hk : Disj.InDim (dim F) [k]) {v : Val} : v ∈ den (predtZone a k) ↔
    Valid (dim F) v ∧ ∃ d : ℝ, 0 ≤ d ∧ delay (dim F) v d ∈ den a ∧ ∀ e : ℝ, 0 ≤ e → e ≤ d → ¬ k.Sat (delay (dim F) v e) := by
  have hb : ∀ w, w ∈ den (ZoneLib.fromDisjunction [k] : F) ↔ Valid (dim F) w ∧ k.Sat w := by
    intro w
    rw [den_fromDisjunction _ hk]
    exact and_congr_right fun _ => ⟨fun ⟨k', h1, h2⟩ => by rw [List.mem_singleton.1 h1] at h2; exact h2,
      fun h => ⟨k, List.mem_singleton_self _, h⟩⟩
  have conv : ∀ w, ∀ d e : ℝ, 0 ≤ d → d ≤ e → k.Sat w → k.Sat (delay (dim F) w e) → k.Sat (delay (dim F) w d) := by
    intro w d e hd hde h1 h2 q hq
    have h1 := h1 q hq
    have h2 := h2 q hq
    obtain ⟨i, j, c⟩ := q
    simp only [Constr.Sat, delay] at *
    cases c <;> simp only [Ineq.Sat] at * <;> split_ifs at * <;> linarith
  unfold predtZone
  simp only [den_append, den_subtraction, den_down, den_inter, Set.mem_union, Set.mem_inter_iff, Set.mem_ofPred_eq, hb]
  constructor
  · rintro (⟨⟨hv, d, hd, h1⟩, h2⟩ | ⟨hv, d, hd, ⟨h1, h2⟩, h3⟩)
    · exact ⟨hv, d, hd, h1, fun e he _ hs => h2 ⟨hv, e, he, delay_valid hv he, hs⟩⟩
    · refine ⟨hv, d, hd, h1, fun e he hed hs => h3 ⟨delay_valid hv hd, ?_⟩⟩
      obtain ⟨_, f, hf, _, h4⟩ := h2
      have := conv (delay (dim F) v e) (d - e) (d + f - e) (by linarith) (by linarith) hs
        (by rw [delay_add]; rw [delay_add] at h4; convert h4 using 2; ring)
      rw [delay_add] at this
      convert this using 2; ring
  · rintro ⟨hv, d, hd, h1, h2⟩
    by_cases hc : ∃ e : ℝ, 0 ≤ e ∧ k.Sat (delay (dim F) v e)
    · obtain ⟨e, he, hs⟩ := hc
      have hde : d < e := not_le.1 fun hle => h2 e he hle hs
      refine .inr ⟨hv, d, hd, ⟨h1, delay_valid hv hd, e - d, by linarith, ?_⟩, fun h => h2 d hd (le_refl _) h.2⟩
      rw [delay_add, show d + (e - d) = e by ring]
      exact ⟨delay_valid hv he, hs⟩
    · exact .inl ⟨⟨hv, d, hd, h1⟩, fun ⟨_, e, he, _, hs⟩ => hc ⟨e, he, hs⟩⟩

theorem predtOf_is : PredtIsStrict (F := F) predtOf := by
  intro a b v
  have hd : Disj.InDim (dim F) (minimal b) := minimal_inDim b
  have hb : ∀ w, w ∈ den b ↔ Valid (dim F) w ∧ ∃ k ∈ minimal b, k.Sat w := by
    intro w; rw [← den_minimal b]; exact Iff.rfl
  have fold : ∀ (ks : List Conj) (z : F), Disj.InDim (dim F) ks →
      (v ∈ den (ks.foldl (fun z k => inter z (predtZone a k)) z) ↔ v ∈ den z ∧ ∀ k ∈ ks, v ∈ den (predtZone a k)) := by
    intro ks
    induction ks with
    | nil => intro z _; simp
    | cons k ks ih =>
      intro z h
      rw [List.foldl_cons, ih _ fun c hc => h c (by simp [hc]), den_inter]
      simp only [Set.mem_inter_iff, List.mem_cons, forall_eq_or_imp, and_assoc]
  unfold predtOf
  rw [fold _ _ hd, den_down]
  constructor
  · rintro ⟨⟨hv, d, hd0, h1⟩, h2⟩
    refine ⟨hv, ?_⟩
    have : ∀ ks : List Conj, (∀ k ∈ ks, k ∈ minimal b) → ∃ d : ℝ, 0 ≤ d ∧ delay (dim F) v d ∈ den a ∧
        ∀ k ∈ ks, ∀ e : ℝ, 0 ≤ e → e ≤ d → ¬ k.Sat (delay (dim F) v e) := by
      intro ks
      induction ks with
      | nil => intro _; exact ⟨d, hd0, h1, by simp⟩
      | cons k ks ih =>
        intro hks
        obtain ⟨d1, h3, h4, h5⟩ := ih fun k hk => hks k (by simp [hk])
        obtain ⟨_, d2, h6, h7, h8⟩ := (mem_predtZone (fun c hc => hd c (by
          rw [List.mem_singleton.1 hc]; exact hks k (by simp)))).1 (h2 k (hks k (by simp)))
        rcases le_total d1 d2 with hle | hle
        · refine ⟨d1, h3, h4, fun k' hk' e he hed => ?_⟩
          rcases List.mem_cons.1 hk' with rfl | hk'
          · exact h8 e he (hed.trans hle)
          · exact h5 k' hk' e he hed
        · refine ⟨d2, h6, h7, fun k' hk' e he hed => ?_⟩
          rcases List.mem_cons.1 hk' with rfl | hk'
          · exact h8 e he hed
          · exact h5 k' hk' e he (hed.trans hle)
    obtain ⟨d', h3, h4, h5⟩ := this _ fun _ h => h
    exact ⟨d', h3, h4, fun e he hed hm => let ⟨_, k, hk, hs⟩ := (hb _).1 hm; h5 k hk e he hed hs⟩
  · rintro ⟨hv, d, hd0, h1, h2⟩
    refine ⟨⟨hv, d, hd0, h1⟩, fun k hk => ?_⟩
    rw [mem_predtZone (fun c hc => hd c (by rw [List.mem_singleton.1 hc]; exact hk))]
    exact ⟨hv, d, hd0, h1, fun e he hed hs => h2 e he hed ((hb _).2 ⟨delay_valid hv he, k, hk, hs⟩)⟩

/-! ## The theorem -/

/-- **C69** Pruning ends: for every component whose guards and invariants compare clocks with literals, the loop of
`prune` takes finitely many steps, however its locations and edges are arranged.  Of `predt` it is assumed that it gives
unions of clock regions for unions of clock regions; this follows from what it is documented to compute (`PredtIs`,
`PredtIsStrict`).  Not covered: conditions on differences of clocks. -/
theorem C69_ends_partial {ins outs : List String} (hp : Prunable F c ins outs) {predt : F → F → F}
    (hpt : PredtRegional predt) (hpl : ∀ g, c.HasExpr g → g.Plain c.decls)
    {order order' : List (LocId × LocTree F) → List (LocId × LocTree F)} (ho' : ∀ l, (order' l).Perm l) {id : Nat}
    {y : CompComp F} (hy : CompComp.compileWith order' c ins outs id = .ok y) :
    Terminates fun n => prune (pruneWork predt n) order c ins outs := by
  have hc := hp.pruneOk ho' hy
  have h7 : NotCut (c.locations.mapM fun l => do
      let b ← immediatelyInconsistent F c l
      .ok (l.id, b)) := NotCut.mapM (fun l => by
    unfold immediatelyInconsistent
    exact ((simple_notCut _ _).bind fun _ => .ok _).bind fun _ => .ok _) _
  unfold prune
  generalize (c.locations.mapM fun l => do
      let b ← immediatelyInconsistent F c l
      .ok (l.id, b)) = r at h7
  cases r with
  | error e => exact ⟨0, .error e, fun h => h7 (by cases h; rfl), fun _ _ => rfl⟩
  | ok flags =>
    simp only [ok_bind]
    split
    · exact ⟨0, _, compileWith_notCut _ _ _ _ _, fun _ _ => rfl⟩
    · obtain ⟨N, r, hr, h⟩ := pruneWork_ends hc hpl hpt ((flags.filter (·.2)).map (·.1))
      refine ⟨N, r >>= fun c' => CompComp.compileWith order c' ins outs 0,
        NotCut.bind (x := r) hr fun _ => compileWith_notCut _ _ _ _ _, fun n hn => ?_⟩
      have := h n hn
      dsimp only at this ⊢
      rw [this]

/-- With `predt` as it is documented. -/
theorem C69_ends_documented_partial {ins outs : List String} (hp : Prunable F c ins outs) {predt : F → F → F}
    (hpt : PredtIs predt ∨ PredtIsStrict predt) (hpl : ∀ g, c.HasExpr g → g.Plain c.decls)
    {order order' : List (LocId × LocTree F) → List (LocId × LocTree F)} (ho' : ∀ l, (order' l).Perm l) {id : Nat}
    {y : CompComp F} (hy : CompComp.compileWith order' c ins outs id = .ok y) :
    Terminates fun n => prune (pruneWork predt n) order c ins outs :=
  C69_ends_partial hp (hpt.elim PredtIs.regional PredtIsStrict.regional) hpl ho' hy

/-! ## Concrete cases -/

theorem lookBack_regional : PredtRegional lookBack := fun _ _ _ hK ha _ => ha.down hK

theorem exRescue_plain : ∀ g, exRescue.HasExpr g → g.Plain exRescue.decls := by
  have x : ∀ (e : Arith), e = .var "x" → e.IsClock xyz3 "x" 1 := fun e he => ⟨by decide, .inr ⟨he, by decide⟩⟩
  have y : ∀ (e : Arith), e = .var "y" → e.IsClock xyz3 "y" 2 := fun e he => ⟨by decide, .inr ⟨he, by decide⟩⟩
  rintro g (⟨e, he, hg⟩ | ⟨l, hl, hg⟩)
  · simp only [exRescue, List.mem_cons, List.not_mem_nil, or_false] at he
    rcases he with rfl | rfl | rfl | rfl | rfl <;> cases hg <;> intro p hp <;>
      rw [List.mem_singleton.1 hp]
    · exact ⟨_, _, _, .inl ⟨x _ rfl, rfl⟩⟩
    · exact ⟨_, _, _, .inl ⟨y _ rfl, rfl⟩⟩
  · simp only [exRescue, List.mem_cons, List.not_mem_nil, or_false] at hl
    rcases hl with rfl | rfl | rfl | rfl <;> cases hg
    intro p hp
    rw [List.mem_singleton.1 hp]
    exact ⟨_, _, _, .inl ⟨x _ rfl, rfl⟩⟩

/-- The hypotheses are met by a component with two clocks, and one step is not enough for it. -/
example : (Terminates fun n => prune (F := Fed4) (pruneWork lookBack n) id exRescue rescueIns rescueOuts) ∧
    (match prune (F := Fed4) (pruneWork lookBack 1) id exRescue rescueIns rescueOuts with
      | .error .fuel => true | _ => false) = true :=
  ⟨C69_ends_partial exRescue_prunable lookBack_regional exRescue_plain (order' := id) (fun _ => .refl _) (y := rescueAll)
    (getOk_eq _), by decide +kernel⟩

/-- The hypotheses of the second theorem are met by the same component. -/
example : Terminates fun n => prune (F := Fed4) (pruneWork (predtOf (F := Fed4)) n) id exRescue rescueIns rescueOuts :=
  C69_ends_documented_partial exRescue_prunable (.inr predtOf_is) exRescue_plain (order' := id) (fun _ => .refl _)
    (y := rescueAll) (getOk_eq _)

end Reveaal
