import Verif.Props.C80
import Verif.Props.C19

/-!
# C80: answers to different determinism queries hang together

The determinism check looks at the components one by one.  So what it says of a product is what it says of the operands,
although these have other clock numbers, and other clocks removed, when they are asked about on their own.
-/

namespace Reveaal
open ZoneLib

section
variable {F G : Type} [ZoneLib F] [ZoneLib G]

/-! ## Clashes in alike components -/

/-- Every valuation of one set agrees with one of the other. -/
def ClockMap.SameSets (ρ : ClockMap) (Z Z' : Set Val) : Prop :=
  (∀ v ∈ Z, ∃ w ∈ Z', ρ.Agree v w) ∧ ∀ w ∈ Z', ∃ v ∈ Z, ρ.Agree v w

theorem ClockMap.SameSets.nonempty {ρ : ClockMap} {Z Z' : Set Val} (h : ρ.SameSets Z Z') : Z.Nonempty ↔ Z'.Nonempty :=
  ⟨fun ⟨v, hv⟩ => let ⟨w, hw, _⟩ := h.1 v hv; ⟨w, hw⟩, fun ⟨w, hw⟩ => let ⟨v, hv, _⟩ := h.2 w hw; ⟨v, hv⟩⟩

theorem ClockMap.SameSets.succ {ρ : ClockMap} (hf : ρ.Fits (dim F) (dim G)) (hi : ρ.Inj) {Z Z' : Set Val}
    (h : ρ.SameSets Z Z') (hv : ∀ v ∈ Z, Valid (dim F) v) (hw : ∀ w ∈ Z', Valid (dim G) w) {t : Transition F}
    {t' : Transition G} (ht : TransAlike ρ t t') (hu : UpdatesOk t.updates (dim F)) :
    ρ.SameSets (SuccSet t Z) (SuccSet t' Z') := by
  have hu' : UpdatesOk t'.updates (dim G) := by rw [ht.updates]; exact ρ.updatesOk hf hu
  have step : ∀ v w d, ρ.Agree v w → ρ.Agree (delay (dim F) (runUpdates t.updates v) d)
      (delay (dim G) (runUpdates t'.updates w) d) := fun v w d ha => by
    rw [ht.updates]
    exact (ha.updates (hi.coherent _)).delay hf d
  constructor
  · rintro _ ⟨v, hm, hg, d, hd, rfl, hinv⟩
    obtain ⟨w, hm', ha⟩ := h.1 v hm
    refine ⟨_, ⟨w, hm', (ht.guard v w (hv v hm) (hw w hm') ha).1 hg, d, hd, rfl, ?_⟩, step v w d ha⟩
    exact (ht.target.inv (delay_valid (runUpdates_valid hu (hv v hm)) hd)
      (delay_valid (runUpdates_valid hu' (hw w hm')) hd) (step v w d ha)).1 hinv
  · rintro _ ⟨w, hm', hg, d, hd, rfl, hinv⟩
    obtain ⟨v, hm, ha⟩ := h.2 w hm'
    refine ⟨_, ⟨v, hm, (ht.guard v w (hv v hm) (hw w hm') ha).2 hg, d, hd, rfl, ?_⟩, step v w d ha⟩
    exact (ht.target.inv (delay_valid (runUpdates_valid hu (hv v hm)) hd)
      (delay_valid (runUpdates_valid hu' (hw w hm')) hd) (step v w d ha)).2 hinv

theorem comp_initialState {x : CompComp F} {l : LocTree F} (h : (Sys.comp x).initialLoc = .ok (some l)) :
    (Sys.comp x).initialState = .ok (State.fromLocation l) := by
  unfold Sys.initialState
  rw [h]
  rfl

theorem fromLocation_ok {l : LocTree F} : (∃ s, State.fromLocation l = some s) ↔
    ∃ d, 0 ≤ d ∧ delay (dim F) zeroVal d ∈ InvSet l := by
  have key : isEmpty (l.applyInvariants (init : F)) = true ↔ ¬ ∃ d, 0 ≤ d ∧ delay (dim F) zeroVal d ∈ InvSet l := by
    rw [ZoneLib.isEmpty_iff, Set.eq_empty_iff_forall_notMem]
    constructor
    · rintro h ⟨d, hd, hm⟩
      exact h _ (mem_applyInvariants.2 ⟨Sys.delay_zero_init hd, hm⟩)
    · intro h v hv
      obtain ⟨h1, h2⟩ := mem_applyInvariants.1 hv
      obtain ⟨d, hd, rfl⟩ := init_is_delay h1
      exact h ⟨d, hd, h2⟩
  unfold State.fromLocation
  dsimp only
  split
  · rename_i he
    refine ⟨?_, fun h => absurd h (key.1 he)⟩
    rintro ⟨s, h⟩
    cases h
  · rename_i he
    exact ⟨fun _ => not_not.1 fun h => he (key.2 h), fun _ => ⟨_, rfl⟩⟩

theorem fromLocation_loc {l : LocTree F} {s : State F} (h : State.fromLocation l = some s) : s.loc = l := by
  unfold State.fromLocation at h
  dsimp only at h
  split at h
  · cases h
  · cases h; rfl

theorem LocAlike.start {ρ : ClockMap} (hf : ρ.Fits (dim F) (dim G)) {l : LocTree F} {l' : LocTree G} (h : LocAlike ρ l l') :
    (∃ s, State.fromLocation l = some s) ↔ ∃ s, State.fromLocation l' = some s := by
  rw [fromLocation_ok, fromLocation_ok]
  refine exists_congr fun d => and_congr_right fun hd => ?_
  exact h.inv (delay_valid Sys.zeroVal_valid hd) (delay_valid Sys.zeroVal_valid hd) (ClockMap.Agree.zero.delay hf d)

section
variable {ρ : ClockMap} (hf : ρ.Fits (dim F) (dim G)) (hi : ρ.Inj) {x : CompComp F} {x' : CompComp G}
  (al : Sys.Alike ρ (.comp x) (.comp x')) (hs : (Sys.comp x).Good) (hs' : (Sys.comp x').Good)
include hf hi al hs hs'

theorem branch_right {l : LocTree F} {Z : Set Val} (h : (Sys.comp x).ts.Branch l Z) :
    ∃ l' Z', (Sys.comp x').ts.Branch l' Z' ∧ LocAlike ρ l l' ∧ ρ.SameSets Z Z' := by
  induction h with
  | @init s0 hi0 =>
    have hi0 : (Sys.comp x).initialState = .ok (some s0) := hi0
    obtain ⟨ol, h1, _⟩ := hs.initial
    rcases al.initial h1 with ⟨rfl, _⟩ | ⟨l, l', rfl, h2, h3⟩
    · unfold Sys.initialState at hi0; rw [h1] at hi0; cases hi0
    · rw [comp_initialState h1] at hi0
      have e := Except.ok.inj hi0
      obtain ⟨s1, e1⟩ := (h3.start hf).1 ⟨s0, e⟩
      rw [fromLocation_loc e]
      have b : (Sys.comp x').ts.Branch s1.loc _ := .init (by
        show (Sys.comp x').initialState = _
        rw [comp_initialState h2, e1])
      rw [fromLocation_loc e1] at b
      exact ⟨l', _, b, h3, fun v hv => hi.partner hf hv, fun w hw => hf.partner hw⟩
  | @step l Z a trans t hb ha hn ht hne ih =>
    obtain ⟨l', Z', hb', hll, hZZ⟩ := ih
    obtain ⟨hl, hv⟩ := branch_spec hs hb
    obtain ⟨hl', hv'⟩ := branch_spec hs' hb'
    obtain ⟨trans', hn', hF⟩ := al.next hf hl hll hn
    obtain ⟨t', ht', htt⟩ := forall2_mem_left hF _ ht
    have S := hZZ.succ hf hi hv hv' htt (hs.next_ok hl ha hn t ht).2.upd
    exact ⟨_, _, .step hb' (by show (Sys.comp x').hasAction a = true; rw [al.hasAction]; exact ha) hn' ht' (S.nonempty.1 hne),
      htt.target, S⟩

theorem branch_left {l' : LocTree G} {Z' : Set Val} (h : (Sys.comp x').ts.Branch l' Z') :
    ∃ l Z, (Sys.comp x).ts.Branch l Z ∧ LocAlike ρ l l' ∧ ρ.SameSets Z Z' := by
  induction h with
  | @init s0 hi0 =>
    have hi0 : (Sys.comp x').initialState = .ok (some s0) := hi0
    obtain ⟨ol, h1, _⟩ := hs.initial
    rcases al.initial h1 with ⟨rfl, h2⟩ | ⟨l, l', rfl, h2, h3⟩
    · unfold Sys.initialState at hi0; rw [h2] at hi0; cases hi0
    · rw [comp_initialState h2] at hi0
      have e := Except.ok.inj hi0
      obtain ⟨s1, e1⟩ := (h3.start hf).2 ⟨s0, e⟩
      rw [fromLocation_loc e]
      have b : (Sys.comp x).ts.Branch s1.loc _ := .init (by
        show (Sys.comp x).initialState = _
        rw [comp_initialState h1, e1])
      rw [fromLocation_loc e1] at b
      exact ⟨l, _, b, h3, fun v hv => hi.partner hf hv, fun w hw => hf.partner hw⟩
  | @step l' Z' a trans' t' hb' ha hn' ht' hne ih =>
    obtain ⟨l, Z, hb, hll, hZZ⟩ := ih
    obtain ⟨hl, hv⟩ := branch_spec hs hb
    obtain ⟨hl', hv'⟩ := branch_spec hs' hb'
    have ha : (Sys.comp x).hasAction a = true := by rw [← al.hasAction]; exact ha
    obtain ⟨trans, hn, _⟩ := hs.next l a hl ha
    obtain ⟨trans0, hn0, hF⟩ := al.next hf hl hll hn
    have hn' : (Sys.comp x').next l' a = .ok trans' := hn'
    rw [hn0] at hn'
    cases hn'
    obtain ⟨t, ht, htt⟩ := forall2_mem_right hF _ ht'
    have S := hZZ.succ hf hi hv hv' htt (hs.next_ok hl ha hn t ht).2.upd
    exact ⟨_, _, .step hb ha hn ht (S.nonempty.2 hne), htt.target, S⟩

theorem clash_alike (hx : x.EdgesAgree) : (∃ l Z, (Sys.comp x).ts.Branch l Z ∧ (Sys.comp x).ts.Clash l Z) ↔
    ∃ l Z, (Sys.comp x').ts.Branch l Z ∧ (Sys.comp x').ts.Clash l Z := by
  have key : ∀ {l : LocTree F} {l' : LocTree G} {Z Z' : Set Val} {a : String} {trans : List (Transition F)}
      {trans' : List (Transition G)}, (Sys.comp x).ts.Branch l Z → (Sys.comp x').ts.Branch l' Z' → LocAlike ρ l l' →
      ρ.SameSets Z Z' → (Sys.comp x).hasAction a = true → (Sys.comp x).next l a = .ok trans →
      List.Forall₂ (TransAlike ρ) trans trans' →
      ((trans.Pairwise fun t t' => (SuccSet t Z).Nonempty → (SuccSet t' Z).Nonempty → ∀ v ∈ InvSet l, v ∈ den t.allowed →
        v ∉ den t'.allowed) ↔ trans'.Pairwise fun t t' => (SuccSet t Z').Nonempty → (SuccSet t' Z').Nonempty →
          ∀ v ∈ InvSet l', v ∈ den t.allowed → v ∉ den t'.allowed) := by
    intro l l' Z Z' a trans trans' hb hb' hll hZZ ha hn hF
    obtain ⟨hl, hv⟩ := branch_spec hs hb
    obtain ⟨hl', hv'⟩ := branch_spec hs' hb'
    have hF := Sys.forall2_with hF (P := fun t : Transition F => UpdatesOk t.updates (dim F) ∧ NoConflict t.updates) fun t ht =>
      ⟨(hs.next_ok hl ha hn t ht).2.upd, hx.next hn t ht⟩
    clear hn ha
    rename_i hF0
    clear hF0
    induction hF with
    | nil => exact ⟨fun _ => .nil, fun _ => .nil⟩
    | @cons t t' trans trans' htt hF ih =>
      rw [List.pairwise_cons, List.pairwise_cons]
      refine and_congr ?_ ih
      have one : ∀ (u : Transition F) (u' : Transition G), TransAlike ρ u u' ∧ UpdatesOk u.updates (dim F) ∧ NoConflict u.updates →
          (((SuccSet t Z).Nonempty → (SuccSet u Z).Nonempty → ∀ v ∈ InvSet l, v ∈ den t.allowed → v ∉ den u.allowed) ↔
            ((SuccSet t' Z').Nonempty → (SuccSet u' Z').Nonempty → ∀ v ∈ InvSet l', v ∈ den t'.allowed →
              v ∉ den u'.allowed)) := by
        rintro u u' ⟨huu, hu1, hu2⟩
        have A := htt.1.allowed hf hi htt.2.1 htt.2.2
        have B := huu.allowed hf hi hu1 hu2
        rw [(hZZ.succ hf hi hv hv' htt.1 htt.2.1).nonempty, (hZZ.succ hf hi hv hv' huu hu1).nonempty]
        refine imp_congr_right fun _ => imp_congr_right fun _ => ⟨fun h w hw hw1 hw2 => ?_, fun h v hm h1 h2 => ?_⟩
        · have hwv := den_valid hw1
          obtain ⟨v, hvv, hag⟩ := hf.partner hwv
          exact h v ((hll.inv hvv hwv hag).2 hw) ((A v w hvv hwv hag).2 hw1) ((B v w hvv hwv hag).2 hw2)
        · have hvv := den_valid h1
          obtain ⟨w, hwv, hag⟩ := hi.partner hf hvv
          exact h w ((hll.inv hvv hwv hag).1 hm) ((A v w hvv hwv hag).1 h1) ((B v w hvv hwv hag).1 h2)
      constructor
      · intro h u' hu'
        obtain ⟨u, hu, huu⟩ := forall2_mem_right hF _ hu'
        exact (one u u' huu).1 (h u hu)
      · intro h u hu
        obtain ⟨u', hu', huu⟩ := forall2_mem_left hF _ hu
        exact (one u u' huu).2 (h u' hu')
  constructor
  · rintro ⟨l, Z, hb, a, trans, ha, hn, hc⟩
    obtain ⟨l', Z', hb', hll, hZZ⟩ := branch_right hf hi al hs hs' hb
    obtain ⟨trans', hn', hF⟩ := al.next hf (branch_spec hs hb).1 hll hn
    exact ⟨l', Z', hb', a, trans', (al.hasAction a).trans ha, hn', fun h => hc ((key hb hb' hll hZZ ha hn hF).2 h)⟩
  · rintro ⟨l', Z', hb', a, trans', ha, hn', hc⟩
    obtain ⟨l, Z, hb, hll, hZZ⟩ := branch_left hf hi al hs hs' hb'
    have ha : (Sys.comp x).hasAction a = true := by rw [← al.hasAction]; exact ha
    obtain ⟨trans, hn, _⟩ := hs.next l a (branch_spec hs hb).1 ha
    obtain ⟨trans0, hn0, hF⟩ := al.next hf (branch_spec hs hb).1 hll hn
    have hn' : (Sys.comp x').next l' a = .ok trans' := hn'
    rw [hn0] at hn'
    cases hn'
    exact ⟨l, Z, hb, a, trans, ha, hn, fun h => hc ((key hb hb' hll hZZ ha hn hF).1 h)⟩

end

/-! ## Systems -/

/-- Some component of the system has a clash. -/
def Sys.Mixed : Sys F → Prop
  | .comp x => ∃ l Z, (Sys.comp x).ts.Branch l Z ∧ (Sys.comp x).ts.Clash l Z
  | .composition l r _ _ _ _ _ => l.Mixed ∨ r.Mixed
  | .conjunction l r _ _ => l.Mixed ∨ r.Mixed
  | .quotient t s _ _ _ _ => t.Mixed ∨ s.Mixed

/-- No component assigns two values to one clock. -/
def Sys.CalmLeaves : Sys F → Prop
  | .comp x => (Sys.comp x).Good ∧ x.EdgesAgree
  | .composition l r _ _ _ _ _ => l.CalmLeaves ∧ r.CalmLeaves
  | .conjunction l r _ _ => l.CalmLeaves ∧ r.CalmLeaves
  | .quotient t s _ _ _ _ => t.CalmLeaves ∧ s.CalmLeaves

theorem Sys.Alike.mixed {ρ : ClockMap} (hf : ρ.Fits (dim F) (dim G)) (hi : ρ.Inj) {s : Sys F} {s' : Sys G}
    (al : Sys.Alike ρ s s') (hs : s.CalmLeaves) (hs' : s'.CalmLeaves) : s.Mixed ↔ s'.Mixed := by
  induction s generalizing s' with
  | comp x =>
    cases s' <;> try exact al.elim
    exact clash_alike hf hi al hs.1 hs'.1 hs.2
  | composition l r _ _ _ _ _ ihl ihr =>
    cases s' <;> try exact al.elim
    exact or_congr (ihl al.1 hs.1 hs'.1) (ihr al.2.1 hs.2 hs'.2)
  | conjunction l r _ _ ihl ihr =>
    cases s' <;> try exact al.elim
    exact or_congr (ihl al.1 hs.1 hs'.1) (ihr al.2.1 hs.2 hs'.2)
  | quotient l r _ _ _ _ ihl ihr =>
    cases s' <;> try exact al.elim
    exact or_congr (ihl al.1 hs.1 hs'.1) (ihr al.2.1 hs.2 hs'.2)

/-- The determinism check fails exactly if some component has a clash. -/
theorem Sys.checkDet_mixed {s : Sys F} (hs : s.PlainLeaves) {ord : List Bool → Orders} (ho : s.ActOrders ord) {fuel : Nat}
    {o : Option (DetFailure F)} (h : s.checkDet ord fuel = .ok o) : o.isSome = true ↔ s.Mixed := by
  induction s generalizing ord o with
  | comp x =>
    have hs : (Sys.comp x).OfPlain := hs
    rw [Sys.checkDet] at h
    exact determinism_exact hs.accepted.good hs.covers ho h
  | composition l r _ _ _ _ _ ihl ihr =>
    rw [Sys.checkDet] at h
    obtain ⟨a, ha, h⟩ := bind_ok h
    have e := ihl hs.1 ho.1 ha
    cases a with
    | none => exact (ihr hs.2 ho.2 h).trans (or_iff_right (fun k => by cases e.2 k)).symm
    | some f => cases h; exact ⟨fun _ => .inl (e.1 rfl), fun _ => rfl⟩
  | conjunction l r _ _ ihl ihr =>
    rw [Sys.checkDet] at h
    obtain ⟨a, ha, h⟩ := bind_ok h
    have e := ihl hs.1 ho.1 ha
    cases a with
    | none => exact (ihr hs.2 ho.2 h).trans (or_iff_right (fun k => by cases e.2 k)).symm
    | some f => cases h; exact ⟨fun _ => .inl (e.1 rfl), fun _ => rfl⟩
  | quotient l r _ _ _ _ ihl ihr =>
    rw [Sys.checkDet] at h
    obtain ⟨a, ha, h⟩ := bind_ok h
    have e := ihl hs.1 ho.1 ha
    cases a with
    | none => exact (ihr hs.2 ho.2 h).trans (or_iff_right (fun k => by cases e.2 k)).symm
    | some f => cases h; exact ⟨fun _ => .inl (e.1 rfl), fun _ => rfl⟩

theorem Sys.Ordinary.calmLeaves {s : Sys F} (h : s.Ordinary) : s.CalmLeaves := by
  induction h with
  | comp hc _ ho h ha => exact ⟨(Sys.Accepted.comp hc ho h).good, ha⟩
  | composition _ _ h _ ihl ihr => obtain ⟨_, e⟩ := Sys.newComposition_eq h; rw [e]; exact ⟨ihl, ihr⟩
  | conjunction _ _ h _ ihl ihr => obtain ⟨_, _, e⟩ := Sys.newConjunction_eq h; rw [e]; exact ⟨ihl, ihr⟩
  | quotient _ _ _ _ h _ _ iht ihs =>
    obtain ⟨_, e⟩ := Sys.newQuotient_eq h
    rw [e]
    exact ⟨iht, ihs⟩

theorem Recipe.compile_calmLeaves : ∀ {r : Recipe} {env : CompileEnv F} {i j : Nat} {s : Sys F}, env.Perm →
    r.quotientClocks = [] → (∀ c ∈ r.components, c.Ok (dim F) ∧ c.UpdatesAgree) → r.compile env i = .ok (s, j) →
    s.CalmLeaves
  | .composition l r, env, i, j, s, he, hq, hc, hs => by
    obtain ⟨q1, q2⟩ := List.append_eq_nil_iff.1 hq
    obtain ⟨⟨sl, k⟩, h1, hs⟩ := bind_ok hs
    obtain ⟨⟨sr, k'⟩, h2, hs⟩ := bind_ok hs
    obtain ⟨s0, h3, hs⟩ := bind_ok hs
    cases hs
    obtain ⟨_, e⟩ := Sys.newComposition_eq h3
    rw [e]
    exact ⟨Recipe.compile_calmLeaves (env := env.sub false) he q1 (fun c hm => hc c (List.mem_append_left _ hm)) h1,
      Recipe.compile_calmLeaves (env := env.sub true) he q2 (fun c hm => hc c (List.mem_append_right _ hm)) h2⟩
  | .conjunction l r, env, i, j, s, he, hq, hc, hs => by
    obtain ⟨q1, q2⟩ := List.append_eq_nil_iff.1 hq
    obtain ⟨⟨sl, k⟩, h1, hs⟩ := bind_ok hs
    obtain ⟨⟨sr, k'⟩, h2, hs⟩ := bind_ok hs
    obtain ⟨s0, h3, hs⟩ := bind_ok hs
    cases hs
    obtain ⟨_, _, e⟩ := Sys.newConjunction_eq (newConjunction_unchecked h3)
    rw [e]
    exact ⟨Recipe.compile_calmLeaves (env := env.sub false) he q1 (fun c hm => hc c (List.mem_append_left _ hm)) h1,
      Recipe.compile_calmLeaves (env := env.sub true) he q2 (fun c hm => hc c (List.mem_append_right _ hm)) h2⟩
  | .quotient l r c, env, i, j, s, he, hq, hc, hs => by
    unfold Recipe.quotientClocks at hq
    simp at hq
  | .component c q, env, i, j, s, he, hq, hc, hs => by
    have hm := hc c (by unfold Recipe.components; simp)
    obtain ⟨x, h1, hs⟩ := bind_ok hs
    cases hs
    exact ⟨(Sys.Accepted.comp hm.1 (he _) h1).good, compile_edgesAgree hm.1 hm.2 h1⟩

/-- An expression as it stands in two queries: a clash at one place is a clash at the other. -/
theorem same_expression_mixed {load : String → Res Component} (hload : ∀ n c, load n = .ok c → c.decls.Numbered)
    {e : SysExpr} (he : e.NoQuotient) {k k' m m' : Nat} {q q1 p p1 : Option Nat} {r r' : Recipe}
    (hr : getSystemRecipe load e k q = .ok (r, k', q1)) (hr' : getSystemRecipe load e m p = .ok (r', m', p1))
    (hm : m' < dim G) (hc : ∀ c ∈ r.components, c.Reducible (dim F) ∧ c.UpdatesAgree) {s : Sys F} {s' : Sys G}
    (hs : r.Means s) (hs' : r'.Means s') : s.Mixed ↔ s'.Mixed := by
  obtain ⟨rfl, nq, hk, hi, hsh⟩ := recipe_shift hload he hr
  rw [hsh m p] at hr'
  cases hr'
  have red : r.Reduces (dim F) (dim G) [] (fun i => i - k + m) id 0 := by
    refine ⟨⟨fun c hm => (hc c hm).1.clear.ok, by rw [nq]; simp⟩, fun c hm => ⟨(hc c hm).1, fun _ i hi => by cases hi⟩,
      fun i h _ => ?_, by rw [nq]; simp⟩
    have := hi i h
    omega
  have inj : (r.clockMap [] (fun i => i - k + m) 0).Inj := by
    have key : ∀ i x, r.clockMap [] (fun i => i - k + m) 0 i = some x → k < i ∧ x = i - k + m := by
      intro i x hx
      unfold Recipe.clockMap at hx
      rw [if_neg (by simp)] at hx
      split at hx
      · rename_i h
        cases hx
        exact ⟨(hi i h).1, rfl⟩
      · rw [if_neg (by rw [nq]; simp)] at hx
        cases hx
    intro i j x hx hy
    have := key i x hx
    have := key j x hy
    omega
  obtain ⟨env, i, j, hp, hs⟩ := hs
  obtain ⟨env', i', j', hp', hs'⟩ := hs'
  have al := Recipe.compile_alike red.fits hp hp' ⟨red.ok, fun c hm => ⟨(hc c hm).1, clockMap_on hm, (red.comps c hm).2⟩,
    fun q hq => red.quot hq, fun hne => absurd nq hne⟩ hs hs'
  refine al.mixed red.fits inj (Recipe.compile_calmLeaves hp nq (fun c hm => ⟨red.ok.1 c hm, (hc c hm).2⟩) hs)
    (Recipe.compile_calmLeaves hp' (by rw [Recipe.reshape_quotientClocks, nq]; rfl) (fun c' hm' => ?_) hs')
  refine ⟨red.reduced_ok.1 c' hm', ?_⟩
  rw [Recipe.reshape_components] at hm'
  obtain ⟨c, hm, rfl⟩ := List.mem_map.1 hm'
  exact (hc c hm).2.reduced (hc c hm).1.names (clockMap_on hm) inj

end

/-! ## Answers -/

section
variable {Z : Nat → Type} [∀ d, ZoneLib (Z d)]

/-- The query `determinism: e` is about `s`: this is the system put together as the expression says, with all `d` clocks
the components declare, and the components are of the kind for which answers are exact (C64). -/
def QueryEnv.AsksAbout (X : QueryEnv Z) (load : String → Res Component) (e : SysExpr) (d : Nat) (s : Sys (Z d)) : Prop :=
  ∃ r q, getRecipes load [e] 0 none = .ok ([r], d, q) ∧ X.Askable r d q ∧ (∀ c ∈ r.components, c.Tame (Z d)) ∧ r.Means s

theorem getRecipes_one {load : String → Res Component} {e : SysExpr} {r : Recipe} {d : Nat} {q : Option Nat}
    (h : getRecipes load [e] 0 none = .ok ([r], d, q)) : getSystemRecipe load e 0 none = .ok (r, d, q) := by
  obtain ⟨⟨r0, d1, q1⟩, ha, h⟩ := bind_ok h
  cases h
  exact ha

/-- The answer is no exactly if some component has a clash. -/
theorem QueryEnv.AsksAbout.exact (hZ : ∀ d, dim (Z d) = d + 1) {X : QueryEnv Z} (hX : X.Fair) {load : String → Res Component}
    (hload : ∀ n c, load n = .ok c → c.decls.Numbered) {e : SysExpr} (he : e.NoQuotient) {d : Nat} {s : Sys (Z d)}
    (hA : X.AsksAbout load e d s) {d' : Nat} {o : Option (DetFailure (Z d'))}
    (h : X.run load (.determinism e) = .ok (.determinism d' o)) : o.isSome = true ↔ s.Mixed := by
  obtain ⟨r, q, hr, hc, ht, hs⟩ := hA
  have nq := (recipe_shift hload he (getRecipes_one hr)).2.1
  obtain ⟨⟨d1, s'⟩, h1, h⟩ := bind_ok h
  obtain ⟨o1, h2, h⟩ := bind_ok h
  cases h
  obtain ⟨r', ρ, j, a, h3⟩ := X.system_form hZ hX hload hr hc h1
  obtain ⟨_, _, al, _, _⟩ := a.behaves (hX.compiled d').2.2.1 hs h3
  obtain ⟨env, _, _, hp, hs⟩ := hs
  have os := a.ordinary (Recipe.lined nq) ht hp (hX.compiled d').2.2.1 hs h3
  have cs := Recipe.compile_calmLeaves hp nq (fun c hm => by
    rw [hZ]
    exact ⟨(hc.comps c hm).1.clear.ok, (hc.comps c hm).2⟩) hs
  exact (Sys.checkDet_mixed os.plain.leaves (hX.checks d' s').1 h2).trans (al.mixed a.fits a.inj cs os.calmLeaves).symm

/-- **C80** `determinism: A || B` is answered with yes exactly if `determinism: A` and `determinism: B` are; and so is
`determinism: A && B`.  The queries may be asked with different hash orders, one with and one without clock reduction.

Missing from the full property: the operands may not contain quotients, and the conditions on the components of C64. -/
theorem C80_determinism_partial (hZ : ∀ d, dim (Z d) = d + 1) (X X1 X2 : QueryEnv Z) (hX : X.Fair) (hX1 : X1.Fair)
    (hX2 : X2.Fair) (load : String → Res Component) (hload : ∀ n c, load n = .ok c → c.decls.Numbered) (e e1 e2 : SysExpr) (h1 : e1.NoQuotient) (h2 : e2.NoQuotient)
    (he : e = .composition e1 e2 ∨ e = .conjunction e1 e2) (d d1 d2 : Nat) (s : Sys (Z d)) (s1 : Sys (Z d1))
    (s2 : Sys (Z d2)) (A : X.AsksAbout load e d s) (A1 : X1.AsksAbout load e1 d1 s1) (A2 : X2.AsksAbout load e2 d2 s2)
    (n n1 n2 : Nat) (o : Option (DetFailure (Z n))) (o1 : Option (DetFailure (Z n1))) (o2 : Option (DetFailure (Z n2)))
    (k : X.run load (.determinism e) = .ok (.determinism n o))
    (k1 : X1.run load (.determinism e1) = .ok (.determinism n1 o1))
    (k2 : X2.run load (.determinism e2) = .ok (.determinism n2 o2)) : o = none ↔ o1 = none ∧ o2 = none := by
  have x := A.exact hZ hX hload (by rcases he with rfl | rfl <;> exact ⟨h1, h2⟩) k
  have x1 := A1.exact hZ hX1 hload h1 k1
  have x2 := A2.exact hZ hX2 hload h2 k2
  obtain ⟨r, q, hr, hc, ht, hs⟩ := A
  obtain ⟨r1, q1, hr1, hc1, ht1, hs1⟩ := A1
  obtain ⟨r2, q2, hr2, hc2, ht2, hs2⟩ := A2
  have key : s.Mixed ↔ s1.Mixed ∨ s2.Mixed := by
    have g := getRecipes_one hr
    have g1 := getRecipes_one hr1
    have g2 := getRecipes_one hr2
    obtain ⟨env, i, j, hp, hs⟩ := hs
    rcases he with rfl | rfl
    · obtain ⟨⟨l1, a1, b1⟩, u1, g⟩ := bind_ok g
      obtain ⟨⟨l2, a2, b2⟩, u2, g⟩ := bind_ok g
      cases g
      obtain ⟨⟨x1, i1⟩, y1, hs⟩ := bind_ok hs
      obtain ⟨⟨x2, i2⟩, y2, hs⟩ := bind_ok hs
      obtain ⟨z, y3, hs⟩ := bind_ok hs
      cases hs
      obtain ⟨_, rfl⟩ := Sys.newComposition_eq y3
      refine or_congr ?_ ?_
      · exact same_expression_mixed hload h1 u1 g1 (by rw [hZ]; omega)
          (fun c hm => by rw [hZ]; exact hc.comps c (List.mem_append_left _ hm)) ⟨env.sub false, _, _, hp, y1⟩ hs1
      · exact same_expression_mixed hload h2 u2 g2 (by rw [hZ]; omega)
          (fun c hm => by rw [hZ]; exact hc.comps c (List.mem_append_right _ hm)) ⟨env.sub true, _, _, hp, y2⟩ hs2
    · obtain ⟨⟨l1, a1, b1⟩, u1, g⟩ := bind_ok g
      obtain ⟨⟨l2, a2, b2⟩, u2, g⟩ := bind_ok g
      cases g
      obtain ⟨⟨x1, i1⟩, y1, hs⟩ := bind_ok hs
      obtain ⟨⟨x2, i2⟩, y2, hs⟩ := bind_ok hs
      obtain ⟨z, y3, hs⟩ := bind_ok hs
      cases hs
      obtain ⟨_, _, rfl⟩ := Sys.newConjunction_eq (newConjunction_unchecked y3)
      refine or_congr ?_ ?_
      · exact same_expression_mixed hload h1 u1 g1 (by rw [hZ]; omega)
          (fun c hm => by rw [hZ]; exact hc.comps c (List.mem_append_left _ hm)) ⟨env.sub false, _, _, hp, y1⟩ hs1
      · exact same_expression_mixed hload h2 u2 g2 (by rw [hZ]; omega)
          (fun c hm => by rw [hZ]; exact hc.comps c (List.mem_append_right _ hm)) ⟨env.sub true, _, _, hp, y2⟩ hs2
  rw [key, ← x1, ← x2] at x
  cases o <;> cases o1 <;> cases o2 <;> simp_all

end

/-! ## A concrete case -/

/-- Two edges with the same output can be taken at any time. -/
def exTwice82 : Component := ⟨"M", ⟨[], []⟩, [⟨"L0", none, .initial, "NORMAL"⟩],
  [⟨"e", "L0", "L0", .output, none, none, "tick"⟩, ⟨"f", "L0", "L0", .output, none, none, "tick"⟩]⟩

def load82 : String → Res Component := fun n =>
  if n = "A" then .ok (exQuick79 1) else if n = "M" then .ok exTwice82 else .error (.err "unknown")

theorem load82_numbered (n : String) (c : Component) (h : load82 n = .ok c) : c.decls.Numbered := by
  unfold load82 at h
  split at h
  · cases h; exact .refl _
  · split at h
    · cases h; exact .refl _
    · cases h

theorem exTwice82_reducible {N : Nat} (hok : exTwice82.okB N = true) : exTwice82.Reducible N ∧ exTwice82.UpdatesAgree := by
  have hinv : ∀ l ∈ exTwice82.locations, l.invariant = none := fun l hl => by rw [List.mem_singleton.1 hl]
  have hg : ∀ e ∈ exTwice82.edges, e.guard = none ∧ e.update = none := fun e he => by
    simp only [exTwice82, List.mem_cons, List.not_mem_nil, or_false] at he
    rcases he with rfl | rfl <;> exact ⟨rfl, rfl⟩
  refine ⟨⟨⟨Component.ok_of_okB hok, fun e he g h => ?_, fun l hl g h => ?_, List.nodup_singleton _, ?_,
    List.nodup_nil⟩, ⟨fun e he g h => ?_, fun l hl g h => ?_⟩, List.nodup_nil⟩, fun e he us h => ?_⟩
  · rw [(hg e he).1] at h; cases h
  · rw [hinv l hl] at h; cases h
  · intro l hl l' hl' _ _
    rw [List.mem_singleton.1 hl, List.mem_singleton.1 hl']
  · rw [(hg e he).1] at h; cases h
  · rw [hinv l hl] at h; cases h
  · rw [(hg e he).2] at h; cases h

theorem asks82 {e : SysExpr} {r : Recipe} {d : Nat} {s : Sys (FedD d)} (hd : d ≤ 2)
    (hr : getRecipes load82 [e] 0 none = .ok ([r], d, none))
    (hc : ∀ c ∈ r.components, (c.Reducible (d + 1) ∧ c.UpdatesAgree) ∧ c.Tame (FedD d)) (hs : r.Means s) :
    queries80.AsksAbout load82 e d s :=
  ⟨r, none, hr, ⟨by omega, fun c hm => (hc c hm).1, (fun h => by cases h), fun h => by cases h⟩, fun c hm => (hc c hm).2, hs⟩

theorem quick82 : ((exQuick79 1).Reducible 2 ∧ (exQuick79 1).UpdatesAgree) ∧ (exQuick79 1).Tame (FedD 1) :=
  comps80_all (d := 1) (by simp [comps80])

theorem twice82_one : (exTwice82.Reducible 2 ∧ exTwice82.UpdatesAgree) ∧ exTwice82.Tame (FedD 1) :=
  ⟨exTwice82_reducible (by decide), tame80 (by decide) (by decide) (getOk_eq (by decide +kernel)) (by decide +kernel)
    (by decide +kernel)⟩

theorem twice82_zero : (exTwice82.Reducible 1 ∧ exTwice82.UpdatesAgree) ∧ exTwice82.Tame (FedD 0) :=
  ⟨exTwice82_reducible (by decide), tame80 (by decide) (by decide) (getOk_eq (by decide +kernel)) (by decide +kernel)
    (by decide +kernel)⟩

/-- What is answered to a determinism query about `d` clocks. -/
def detAnswer {Z : Nat → Type} (d : Nat) : Res (QueryOutcome Z) → Option Bool
  | .ok (.determinism d' o) => if d' = d then some o.isNone else none
  | _ => none

theorem detAnswer_yes {Z : Nat → Type} {d : Nat} {x : Res (QueryOutcome Z)} (h : detAnswer d x = some true) :
    x = .ok (.determinism d none) := by
  unfold detAnswer at h
  split at h
  · rename_i d' o
    split at h
    · rename_i e
      subst e
      cases o with
      | none => rfl
      | some f => cases h
    · cases h
  · cases h

theorem detAnswer_no {Z : Nat → Type} {d : Nat} {x : Res (QueryOutcome Z)} (h : detAnswer d x = some false) :
    ∃ f, x = .ok (.determinism d (some f)) := by
  unfold detAnswer at h
  split at h
  · rename_i d' o
    split at h
    · rename_i e
      subst e
      cases o with
      | none => cases h
      | some f => exact ⟨f, rfl⟩
    · cases h
  · cases h

/-- Non-vacuity: `determinism: A` is answered with yes, `determinism: M` with no, and so is `determinism: A || M`. -/
example : ∃ f, queries80.run load82 (.determinism (.composition (.component "A" none) (.component "M" none))) =
    .ok (.determinism 1 (some f)) := by
  have h1 := detAnswer_yes (d := 1) (x := queries80.run load82 (.determinism (.component "A" none))) (by decide +kernel)
  obtain ⟨f, h2⟩ := detAnswer_no (d := 0) (x := queries80.run load82 (.determinism (.component "M" none))) (by decide +kernel)
  obtain ⟨g, h⟩ := detAnswer_no (d := 1) (x := queries80.run load82 (.determinism (.composition (.component "A" none)
    (.component "M" none)))) (by decide +kernel)
  have := C80_determinism_partial dim_fedD queries80 queries80 queries80 queries80_fair queries80_fair queries80_fair load82 load82_numbered
    (.composition (.component "A" none) (.component "M" none)) (.component "A" none) (.component "M" none) trivial trivial
    (.inl rfl) 1 1 0 _ _ _
    (asks82 (r := .composition (.component (exQuick79 1) none) (.component exTwice82 none)) (by decide) rfl (by
      intro c hc
      simp only [Recipe.components, List.cons_append, List.nil_append, List.mem_cons, List.not_mem_nil, or_false] at hc
      rcases hc with rfl | rfl
      · exact quick82
      · exact twice82_one) (means80 (getOk_eq (by decide +kernel))))
    (asks82 (r := .component (exQuick79 1) none) (by decide) rfl (by
      intro c hc
      simp only [Recipe.components, List.mem_cons, List.not_mem_nil, or_false] at hc
      rw [hc]
      exact quick82) (means80 (getOk_eq (by decide +kernel))))
    (asks82 (r := .component exTwice82 none) (by decide) rfl (by
      intro c hc
      simp only [Recipe.components, List.mem_cons, List.not_mem_nil, or_false] at hc
      rw [hc]
      exact twice82_zero) (means80 (getOk_eq (by decide +kernel))))
    1 1 0 (some g) none (some f) h h1 h2
  exact ⟨g, h⟩

end Reveaal
