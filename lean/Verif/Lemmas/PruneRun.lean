import Verif.Lemmas.PruneSteps

/-!
# Runs of the loop of pruning
-/

namespace Reveaal
open ZoneLib
variable {F : Type} [ZoneLib F] {c : Component}

namespace PruneCtx

/-- Every move of the component between states of `K` is still there. -/
def Kept (c : Component) (K : String → Val → Prop) (x : PruneCtx F) : Prop :=
  ∀ e ∈ c.edges, ∀ v, v ∈ pre c F e Set.univ → K e.source v → K e.target (runUpdates (e.ups c.decls) v) →
    ∃ e' ∈ x.comp.edges, e.Same e' ∧ ∃ S, CondMeans F c.decls e'.guard S ∧ v ∈ S

/-- No state of `K` has been found inconsistent. -/
def Apart (K : String → Val → Prop) (x : PruneCtx F) : Prop := ∀ n v, K n v → v ∉ x.Part n

theorem Apart.of_le {K : String → Val → Prop} {x x' : PruneCtx F} (h : x'.Apart K) (hl : x.Le x') : x.Apart K :=
  fun n v hk hv => h n v hk (hl.part n hv)

theorem Kept.of_edges {K : String → Val → Prop} {x x' : PruneCtx F} (h : x.Kept c K)
    (he : x'.comp.edges = x.comp.edges) : x'.Kept c K := by
  unfold Kept; rw [he]; exact h

/-- The witness for a move, if it is the edge `e` itself. -/
theorem pre_of_witness (hc : PruneOk F c) {e0 e : Edge} (he : e ∈ c.edges) (hs : e0.Same e) {v : Val}
    (hv : v ∈ pre c F e0 Set.univ) {S : Set Val} (hS : CondMeans F c.decls e.guard S) (hvS : v ∈ S) :
    v ∈ pre c F e Set.univ ∧ e.source = e0.source ∧ e.target = e0.target ∧ e.ups c.decls = e0.ups c.decls := by
  obtain ⟨h1, h2, h3, h4, h5⟩ := hs.upd
  have h6 := (ups_same (d := c.decls) h4).2
  obtain ⟨t, ht⟩ := hc.compiles e he
  refine ⟨⟨hv.1, by rw [h1]; exact hv.2.1, ?_, by rw [h2, h6]; exact hv.2.2.2.1, trivial⟩, h1, h2, h6⟩
  exact (fromEdge_guard (hc.guard_means he) ht hv.1).1 ((fromEdge_guard hS ht hv.1).2 hvS)

theorem Kept.erase (hc : PruneOk F c) {K : String → Val → Prop} {x x' : PruneCtx F} (h : x.Kept c K) {e : Edge}
    (he : e ∈ c.edges) (hx : x'.comp.edges = x.comp.edges.erase e)
    (hno : ∀ v, v ∈ pre c F e Set.univ → K e.source v → K e.target (runUpdates (e.ups c.decls) v) → False) :
    x'.Kept c K := by
  intro e0 he0 v hv hk1 hk2
  obtain ⟨e', he', hs, S, hS, hvS⟩ := h e0 he0 v hv hk1 hk2
  by_cases heq : e' = e
  · subst heq
    obtain ⟨h1, h2, h3, h4⟩ := pre_of_witness hc he hs hv hS hvS
    exact (hno v h1 (by rw [h2]; exact hk1) (by rw [h3, h4]; exact hk2)).elim
  · exact ⟨e', by rw [hx]; exact (List.mem_erase_of_ne heq).2 he', hs, S, hS, hvS⟩

theorem Kept.replace (hc : PruneOk F c) {K : String → Val → Prop} {x x' : PruneCtx F} (h : x.Kept c K) {e : Edge}
    (he : e ∈ c.edges) {g : Option BoolE} (hm : e ∈ x.comp.edges)
    (hx : x'.comp.edges = replaceGuard e g x.comp.edges) {S : Set Val} (hS : CondMeans F c.decls g S)
    (hin : ∀ v, v ∈ pre c F e Set.univ → K e.source v → K e.target (runUpdates (e.ups c.decls) v) → v ∈ S) :
    x'.Kept c K := by
  intro e0 he0 v hv hk1 hk2
  obtain ⟨e', he', hs, S', hS', hvS⟩ := h e0 he0 v hv hk1 hk2
  obtain ⟨r1, r2⟩ := replaceGuard_mem (g := g) hm
  by_cases heq : e' = e
  · subst heq
    obtain ⟨h1, h2, h3, h4⟩ := pre_of_witness hc he hs hv hS' hvS
    refine ⟨{ e' with guard := g }, by rw [hx]; exact r1, ?_, S, hS, ?_⟩
    · obtain ⟨g', rfl⟩ := hs; exact ⟨g, rfl⟩
    · exact hin v h1 (by rw [h2]; exact hk1) (by rw [h3, h4]; exact hk2)
  · exact ⟨e', by rw [hx]; exact r2 e' he' heq, hs, S', hS', hvS⟩

/-! ## One edge -/

theorem handleEdge_spec (hc : PruneOk F c) {predt : F → F → F} {x x' : PruneCtx F} (h : x.Fine c) {e : Edge}
    (he : e ∈ c.edges) (hr : x.handleEdge predt e = .ok x') :
    x'.Fine c ∧ x.Le x' ∧ (e.sync = .input → pre c F e (x.Part e.target) ⊆ x'.Part e.source) ∧
    ∀ K, x'.Apart K → x.Kept c K → x'.Kept c K := by
  unfold handleEdge handleIfInput handleOutput at hr
  obtain ⟨x1, h1, hr⟩ := bind_ok hr
  obtain ⟨x2, h2, hr⟩ := bind_ok hr
  have s1 : x1.Fine c ∧ x.Le x1 ∧ (e.sync = .input → pre c F e (x.Part e.target) ⊆ x1.Part e.source) ∧
      ∀ K, x1.Apart K → x.Kept c K → x1.Kept c K := by
    split at h1
    · obtain ⟨i1, i2, i3, _, i5⟩ := handleInput_spec hc h he h1
      refine ⟨i1, i2, fun _ => i3, fun K hK hk => ?_⟩
      rcases i5 with i5 | ⟨i5, i6⟩
      · exact hk.of_edges (by rw [i5])
      · exact hk.erase hc he i5 fun v hv k1 k2 => i6 v hv (hK _ _ k1) (hK _ _ k2)
    · rename_i hne
      cases h1
      exact ⟨h, .refl x, fun hs => absurd hs hne, fun K _ hk => hk⟩
  obtain ⟨f1, l1, cl, k1⟩ := s1
  obtain ⟨f2, l2, p2, e2⟩ := cutEdge_spec hc f1 he h2
  obtain ⟨f3, l3, c3, _⟩ := stuckSource_spec hc f2 hr
  refine ⟨f3, (l1.trans l2).trans l3, fun hs v hv => (l2.trans l3).part _ (cl hs hv), fun K hK hk => ?_⟩
  have hK2 := hK.of_le l3
  have hK1 := hK2.of_le l2
  have hk1 := k1 K hK1 hk
  refine Kept.of_edges (x := x2) ?_ (by rw [c3])
  rcases e2 with e2 | ⟨e2, hno⟩ | ⟨g, S, hm, e2, hS, hin⟩
  · exact hk1.of_edges e2
  · exact hk1.erase hc he e2 fun v hv _ q => hno v hv (hK1 _ _ q)
  · exact hk1.replace hc he hm e2 hS fun v hv _ q => hin v hv (hK1 _ _ q)

theorem handleEdges_spec (hc : PruneOk F c) {predt : F → F → F} : ∀ {es : List Edge} {x x' : PruneCtx F},
    (∀ e ∈ es, e ∈ c.edges) → x.Fine c → es.foldlM (handleEdge predt) x = .ok x' →
    x'.Fine c ∧ x.Le x' ∧
    (∀ e ∈ es, e.sync = .input → e.target ∉ x'.locs → pre c F e (x'.Part e.target) ⊆ x'.Part e.source) ∧
    ∀ K, x'.Apart K → x.Kept c K → x'.Kept c K := by
  intro es
  induction es with
  | nil => intro x x' _ h hr; cases hr; exact ⟨h, .refl x, fun e he => (by cases he), fun K _ hk => hk⟩
  | cons e es ih =>
    intro x x' hes h hr
    rw [List.foldlM_cons] at hr
    obtain ⟨x1, h1, hr⟩ := bind_ok hr
    obtain ⟨f1, l1, c1, k1⟩ := handleEdge_spec hc h (hes e (by simp)) h1
    obtain ⟨f2, l2, c2, k2⟩ := ih (fun e he => hes e (by simp [he])) f1 hr
    refine ⟨f2, l1.trans l2, fun e' he' hs hn => ?_, fun K hK hk => k2 K hK (k1 K (hK.of_le l2) hk)⟩
    rcases List.mem_cons.1 he' with rfl | he'
    · intro v hv
      refine l2.part _ (c1 hs ⟨hv.1, hv.2.1, hv.2.2.1, hv.2.2.2.1, ?_⟩)
      exact (l1.trans l2).same _ hn hv.2.2.2.2
    · exact c2 e' he' hs hn

/-! ## The loop -/

/-- Except for locations still on the stack, the inconsistent states are closed under inputs, backwards. -/
def InputClosed (c : Component) (x : PruneCtx F) : Prop :=
  ∀ e ∈ c.edges, e.sync = .input → e.target ∉ x.locs → pre c F e (x.Part e.target) ⊆ x.Part e.source

theorem loop_spec (hc : PruneOk F c) {predt : F → F → F} : ∀ {fuel : Nat} {x x' : PruneCtx F}, x.Fine c →
    x.InputClosed c → loop predt c fuel x = .ok x' →
    x'.Fine c ∧ (∀ n, x.Part n ⊆ x'.Part n) ∧ x'.InputClosed c ∧ x'.locs = [] ∧
    ∀ K, x'.Apart K → x.Kept c K → x'.Kept c K := by
  intro fuel
  induction fuel with
  | zero =>
    rintro ⟨comp, locs, parts, passed⟩ x' h hcl hr
    cases locs with
    | nil => cases hr; exact ⟨h, fun _ _ h => h, hcl, rfl, fun K _ hk => hk⟩
    | cons n locs => cases hr
  | succ fuel ih =>
    rintro ⟨comp, locs, parts, passed⟩ x' h hcl hr
    cases locs with
    | nil => cases hr; exact ⟨h, fun _ _ h => h, hcl, rfl, fun K _ hk => hk⟩
    | cons n locs =>
      unfold loop at hr
      obtain ⟨x1, h1, hr⟩ := bind_ok hr
      have hf : (⟨comp, locs, parts, passed⟩ : PruneCtx F).Fine c := ⟨h.comp, h.edges, h.passed⟩
      obtain ⟨f1, l1, c1, k1⟩ := handleEdges_spec hc (fun e he => (List.mem_filter.1 he).1) hf h1
      have hcl1 : x1.InputClosed c := by
        intro e he hs hn
        by_cases hen : e.target = n
        · exact c1 e (List.mem_filter.2 ⟨he, by simp [hen]⟩) hs hn
        · intro v hv
          have hn0 : e.target ∉ locs := fun hm => hn (l1.locs _ hm)
          refine l1.part _ (hcl e he hs ?_ ⟨hv.1, hv.2.1, hv.2.2.1, hv.2.2.2.1, l1.same _ hn hv.2.2.2.2⟩)
          intro hm
          rcases List.mem_cons.1 hm with hm | hm
          · exact hen hm
          · exact hn0 hm
      obtain ⟨f2, l2, c2, e2, k2⟩ := ih f1 hcl1 hr
      exact ⟨f2, fun m v hv => l2 m (l1.part m hv), c2, e2, fun K hK hk =>
        k2 K hK (k1 K (fun m v q hv => hK m v q (l2 m hv)) hk)⟩

/-! ## States that need not be removed -/

/-- A set of states of the component in which it can stay: invariants hold, inputs and the passing of time stay inside,
and from every state time can pass forever or up to an output that stays inside. -/
structure Safe (F : Type) [ZoneLib F] (c : Component) (K : String → Val → Prop) : Prop where
  valid : ∀ n v, K n v → Valid (dim F) v ∧ v ∈ c.invAt n
  input : ∀ e ∈ c.edges, e.sync = .input → ∀ v, v ∈ pre c F e Set.univ → K e.source v →
    K e.target (runUpdates (e.ups c.decls) v)
  time : ∀ e ∈ c.edges, ∀ v, K e.source v → ∀ d : ℝ, 0 ≤ d → delay (dim F) v d ∈ c.invAt e.source →
    K e.source (delay (dim F) v d)
  progress : ∀ e ∈ c.edges, ∀ v, K e.source v →
    (∀ d : ℝ, 0 ≤ d → delay (dim F) v d ∈ c.invAt e.source) ∨
    ∃ d : ℝ, 0 ≤ d ∧ ∃ o ∈ c.edges, o.source = e.source ∧ o.sync = .output ∧
      delay (dim F) v d ∈ pre c F o Set.univ ∧ K e.source (delay (dim F) v d) ∧
      K o.target (runUpdates (o.ups c.decls) (delay (dim F) v d))

theorem Safe.handleEdge (hc : PruneOk F c) {predt : F → F → F} (hp : PredtOk predt) {K : String → Val → Prop}
    (hK : Safe F c K) {x x' : PruneCtx F} (h : x.Fine c) {e : Edge} (he : e ∈ c.edges) (ha : x.Apart K)
    (hk : x.Kept c K) (hr : x.handleEdge predt e = .ok x') : x'.Apart K := by
  unfold PruneCtx.handleEdge handleIfInput handleOutput at hr
  obtain ⟨x1, h1, hr⟩ := bind_ok hr
  obtain ⟨x2, h2, hr⟩ := bind_ok hr
  have s1 : x1.Fine c ∧ x1.Apart K ∧ x1.Kept c K := by
    split at h1
    · rename_i hsy
      obtain ⟨i1, i2, i3, i4, i5⟩ := handleInput_spec hc h he h1
      have hap : x1.Apart K := by
        intro n v hn hv
        rcases i4 n v hv with hv | ⟨rfl, hq⟩
        · exact ha n v hn hv
        · obtain ⟨d, hd, hpre⟩ := hq hp
          have k1 := hK.time e he v hn d hd hpre.2.1
          have k2 := hK.input e he hsy _ ⟨hpre.1, hpre.2.1, hpre.2.2.1, hpre.2.2.2.1, trivial⟩ k1
          exact ha _ _ k2 hpre.2.2.2.2
      refine ⟨i1, hap, ?_⟩
      rcases i5 with i5 | ⟨i5, i6⟩
      · exact hk.of_edges (by rw [i5])
      · exact hk.erase hc he i5 fun v hv k1 k2 => i6 v hv (hap _ _ k1) (hap _ _ k2)
    · cases h1
      exact ⟨h, ha, hk⟩
  obtain ⟨f1, a1, k1⟩ := s1
  obtain ⟨f2, l2, p2, e2⟩ := cutEdge_spec hc f1 he h2
  have a2 : x2.Apart K := fun n v hn hv => a1 n v hn (by rw [← Part_eq p2]; exact hv)
  have k2 : x2.Kept c K := by
    rcases e2 with e2 | ⟨e2, hno⟩ | ⟨g, S, hm, e2, hS, hin⟩
    · exact k1.of_edges e2
    · exact k1.erase hc he e2 fun v hv _ q => hno v hv (a1 _ _ q)
    · exact k1.replace hc he hm e2 hS fun v hv _ q => hin v hv (a1 _ _ q)
  obtain ⟨f3, l3, c3, p3⟩ := stuckSource_spec hc f2 hr
  intro n v hn hv
  rcases p3 n v hv with hv | ⟨rfl, _, _, hforever, hout⟩
  · exact a2 n v hn hv
  · rcases hK.progress e he v hn with hall | ⟨d, hd, o, ho, hos, hoo, hpre, hks, hkt⟩
    · exact hforever hall
    · obtain ⟨o', ho', hsame, S, hS, hvS⟩ := k2 o ho _ hpre (by rw [hos]; exact hks) hkt
      obtain ⟨q1, q2, q3, q4, _⟩ := hsame.upd
      have q6 := (ups_same (d := c.decls) q4).2
      have := hout o' ho' (by rw [q1, hos]) (by rw [q3, hoo]) S hS d hd hvS (by rw [q2, q6]; exact hpre.2.2.2.1)
      rw [q2, q6] at this
      exact a2 _ _ hkt this

theorem Safe.handleEdges (hc : PruneOk F c) {predt : F → F → F} (hp : PredtOk predt) {K : String → Val → Prop}
    (hK : Safe F c K) : ∀ {es : List Edge} {x x' : PruneCtx F}, (∀ e ∈ es, e ∈ c.edges) → x.Fine c → x.Apart K →
    x.Kept c K → es.foldlM (PruneCtx.handleEdge predt) x = .ok x' → x'.Fine c ∧ x'.Apart K ∧ x'.Kept c K := by
  intro es
  induction es with
  | nil => intro x x' _ h ha hk hr; cases hr; exact ⟨h, ha, hk⟩
  | cons e es ih =>
    intro x x' hes h ha hk hr
    rw [List.foldlM_cons] at hr
    obtain ⟨x1, h1, hr⟩ := bind_ok hr
    obtain ⟨f1, _, _, k1⟩ := handleEdge_spec hc h (hes e (by simp)) h1
    have a1 := hK.handleEdge hc hp h (hes e (by simp)) ha hk h1
    exact ih (fun e he => hes e (by simp [he])) f1 a1 (k1 K a1 hk) hr

theorem Safe.loop (hc : PruneOk F c) {predt : F → F → F} (hp : PredtOk predt) {K : String → Val → Prop}
    (hK : Safe F c K) : ∀ {fuel : Nat} {x x' : PruneCtx F}, x.Fine c → x.Apart K → x.Kept c K →
    PruneCtx.loop predt c fuel x = .ok x' → x'.Apart K ∧ x'.Kept c K := by
  intro fuel
  induction fuel with
  | zero =>
    rintro ⟨comp, locs, parts, passed⟩ x' h ha hk hr
    cases locs with
    | nil => cases hr; exact ⟨ha, hk⟩
    | cons n locs => cases hr
  | succ fuel ih =>
    rintro ⟨comp, locs, parts, passed⟩ x' h ha hk hr
    cases locs with
    | nil => cases hr; exact ⟨ha, hk⟩
    | cons n locs =>
      unfold PruneCtx.loop at hr
      obtain ⟨x1, h1, hr⟩ := bind_ok hr
      have hf : (⟨comp, locs, parts, passed⟩ : PruneCtx F).Fine c := ⟨h.comp, h.edges, h.passed⟩
      obtain ⟨f1, a1, k1⟩ := hK.handleEdges hc hp (fun e he => (List.mem_filter.1 he).1) hf ha hk h1
      exact ih f1 a1 k1 hr

end PruneCtx
end Reveaal
