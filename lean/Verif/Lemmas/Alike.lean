import Verif.Lemmas.SysGood
import Verif.Spec.Semantics
import Verif.Spec.Step
import Mathlib.Data.List.Forall2
import Mathlib.Data.List.Induction

/-!
# Systems that are alike up to a renaming of clocks

A clock map sends a clock of one system to a clock of another; several clocks may be sent to the same one, and
some may be dropped.  Zones, locations, transitions and systems are alike if they do not distinguish valuations
that agree along the map.
-/

namespace Reveaal
open ZoneLib
variable {F G : Type} [ZoneLib F] [ZoneLib G]

/-- Where the clocks of one system are found in another. -/
abbrev ClockMap := Nat → Option Nat

namespace ClockMap

/-- Every clock has the value of the clock it is sent to. -/
def Agree (ρ : ClockMap) (v w : Val) : Prop := ∀ i k, ρ i = some k → w k = v i

/-- Real clocks are sent to real clocks. -/
def Fits (ρ : ClockMap) (n n' : Nat) : Prop := ∀ i k, ρ i = some k → (0 < i ∧ i < n) ∧ 0 < k ∧ k < n'

/-- Different clocks are not merged. -/
def Inj (ρ : ClockMap) : Prop := ∀ i j k, ρ i = some k → ρ j = some k → i = j

/-- The assignments to clocks that are kept. -/
def updates (ρ : ClockMap) (us : List CUpdate) : List CUpdate :=
  us.filterMap fun u => (ρ u.clock).map fun k => ⟨k, u.value⟩

theorem mem_updates {ρ : ClockMap} {us : List CUpdate} {u' : CUpdate} :
    u' ∈ ρ.updates us ↔ ∃ u ∈ us, ρ u.clock = some u'.clock ∧ u.value = u'.value := by
  unfold updates
  rw [List.mem_filterMap]
  constructor
  · rintro ⟨u, hu, h⟩
    cases hk : ρ u.clock with
    | none => rw [hk] at h; cases h
    | some k => rw [hk] at h; cases h; exact ⟨u, hu, hk, rfl⟩
  · rintro ⟨u, hu, hk, hv⟩
    refine ⟨u, hu, ?_⟩
    rw [hk, hv]
    rfl

theorem updates_append (ρ : ClockMap) (us vs : List CUpdate) :
    ρ.updates (us ++ vs) = ρ.updates us ++ ρ.updates vs := List.filterMap_append

theorem updatesOk {ρ : ClockMap} {n n' : Nat} (h : ρ.Fits n n') {us : List CUpdate} (hu : UpdatesOk us n) :
    UpdatesOk (ρ.updates us) n' := by
  intro u' hu'
  obtain ⟨u, hm, hk, hv⟩ := mem_updates.1 hu'
  have := (h _ _ hk).2
  exact ⟨this.1, this.2, hv ▸ (hu u hm).2.2⟩

theorem noConflict {ρ : ClockMap} (h : ρ.Inj) {us : List CUpdate} (hu : NoConflict us) :
    NoConflict (ρ.updates us) := by
  intro u hm u' hm' hk
  obtain ⟨x, h1, h2, h3⟩ := mem_updates.1 hm
  obtain ⟨x', h1', h2', h3'⟩ := mem_updates.1 hm'
  rw [← h3, ← h3']
  exact hu x h1 x' h1' (h _ _ _ h2 (hk ▸ h2'))

theorem Agree.zero {ρ : ClockMap} : ρ.Agree zeroVal zeroVal := by intro i k _; rfl

theorem Agree.delay {ρ : ClockMap} {n n' : Nat} (h : ρ.Fits n n') {v w : Val} (ha : ρ.Agree v w) (d : ℝ) :
    ρ.Agree (delay n v d) (Reveaal.delay n' w d) := by
  intro i k hk
  have := h i k hk
  unfold Reveaal.delay
  rw [if_pos this.1, if_pos this.2, ha i k hk]

/-- The last value assigned to a clock. -/
def lastValue (us : List CUpdate) (i : Nat) : Option Int :=
  us.foldl (fun o u => if u.clock = i then some u.value else o) none

theorem runUpdates_last (i : Nat) : ∀ (us : List CUpdate) (v : Val),
    runUpdates us v i = match us.foldl (fun o u => if u.clock = i then some u.value else o) none with
      | some c => (c : ℝ)
      | none => v i := by
  have key : ∀ (us : List CUpdate) (v w : Val) (o : Option Int),
      v i = (match o with | some c => (c : ℝ) | none => w i) →
      runUpdates us v i = match us.foldl (fun o u => if u.clock = i then some u.value else o) o with
        | some c => (c : ℝ)
        | none => w i := by
    intro us
    induction us with
    | nil => intro v w o h; exact h
    | cons u us ih =>
      intro v w o h
      rw [runUpdates, List.foldl_cons]
      refine ih _ w _ ?_
      by_cases hu : u.clock = i
      · rw [if_pos hu, ← hu, assign_same]
      · rw [if_neg hu, assign_other _ _ (fun e => hu e.symm)]
        exact h
  exact fun us v => key us v v none rfl

theorem runUpdates_lastValue (us : List CUpdate) (v : Val) (i : Nat) :
    runUpdates us v i = match lastValue us i with
      | some c => (c : ℝ)
      | none => v i := runUpdates_last i us v

theorem lastValue_append (us : List CUpdate) (u : CUpdate) (i : Nat) :
    lastValue (us ++ [u]) i = if u.clock = i then some u.value else lastValue us i := by
  unfold lastValue
  rw [List.foldl_append]
  rfl

theorem lastValue_ne_none {us : List CUpdate} {i : Nat} : lastValue us i = none ↔ ∀ u ∈ us, u.clock ≠ i := by
  induction us using List.reverseRecOn with
  | nil => simp [lastValue]
  | append_singleton us u ih =>
    rw [lastValue_append]
    constructor
    · intro h u' hu' he
      split at h
      · cases h
      · rename_i hne
        rcases List.mem_append.1 hu' with hu' | hu'
        · exact ih.1 h u' hu' he
        · rw [List.mem_singleton] at hu'
          exact hne (hu' ▸ he)
    · intro h
      rw [if_neg (h u (by simp))]
      exact ih.2 fun u' hu' => h u' (by simp [hu'])

/-- The last value assigned to the clock that others are sent to is that assigned to one of these. -/
theorem lastValue_updates {ρ : ClockMap} (us : List CUpdate) {k : Nat} {c : Int}
    (h : lastValue (ρ.updates us) k = some c) : ∃ i, ρ i = some k ∧ lastValue us i = some c := by
  induction us using List.reverseRecOn with
  | nil => cases h
  | append_singleton us u ih =>
    rw [updates_append] at h
    cases hu : ρ u.clock with
    | none =>
      have : ρ.updates [u] = [] := by simp [updates, hu]
      rw [this, List.append_nil] at h
      obtain ⟨i, h1, h2⟩ := ih h
      refine ⟨i, h1, ?_⟩
      rw [lastValue_append, if_neg]
      · exact h2
      · intro e; rw [e, h1] at hu; cases hu
    | some k' =>
      have : ρ.updates [u] = [⟨k', u.value⟩] := by simp [updates, hu]
      rw [this, lastValue_append] at h
      by_cases hk : k' = k
      · simp only [hk, if_true] at h
        cases h
        exact ⟨u.clock, by rw [hu, hk], by rw [lastValue_append, if_pos rfl]⟩
      · simp only [hk, if_false] at h
        obtain ⟨i, h1, h2⟩ := ih h
        refine ⟨i, h1, ?_⟩
        rw [lastValue_append, if_neg]
        · exact h2
        · intro e; rw [e, h1] at hu; cases hu; exact hk rfl

/-- Merged clocks are assigned the same values. -/
def Coherent (ρ : ClockMap) (us : List CUpdate) : Prop :=
  ∀ i j k, ρ i = some k → ρ j = some k → lastValue us i = lastValue us j

theorem Inj.coherent {ρ : ClockMap} (h : ρ.Inj) (us : List CUpdate) : ρ.Coherent us :=
  fun i j k hi hj => by rw [h i j k hi hj]

theorem Agree.updates {ρ : ClockMap} {us : List CUpdate} (hc : ρ.Coherent us) {v w : Val} (h : ρ.Agree v w) :
    ρ.Agree (runUpdates us v) (runUpdates (ρ.updates us) w) := by
  intro i k hk
  rw [runUpdates_lastValue, runUpdates_lastValue]
  cases hl : lastValue (ρ.updates us) k with
  | some c =>
    obtain ⟨j, hj, hv⟩ := lastValue_updates us hl
    rw [hc i j k hk hj, hv]
  | none =>
    have : lastValue us i = none := by
      rw [lastValue_ne_none] at hl ⊢
      intro u hu he
      exact hl ⟨k, u.value⟩ (mem_updates.2 ⟨u, hu, by rw [he, hk], rfl⟩) rfl
    rw [this]
    exact h i k hk

/-- Without merging, every valuation of either side has a partner. -/
theorem Inj.partner {ρ : ClockMap} (hi : ρ.Inj) {n n' : Nat} (hf : ρ.Fits n n') {v : Val} (hv : Valid n v) :
    ∃ w, Valid n' w ∧ ρ.Agree v w := by
  classical
  refine ⟨fun k => if h : ∃ i, ρ i = some k then v h.choose else 0, ⟨?_, ?_, ?_⟩, ?_⟩
  · show dite _ _ _ = _
    rw [dif_neg]
    rintro ⟨i, h⟩
    exact absurd (hf i 0 h).2.1 (by omega)
  · intro k
    dsimp only
    split
    · exact hv.2.1 _
    · exact le_refl _
  · intro k hk
    show dite _ _ _ = _
    rw [dif_neg]
    rintro ⟨i, h⟩
    exact absurd (hf i k h).2.2 (by omega)
  · intro i k hk
    have : ∃ i, ρ i = some k := ⟨i, hk⟩
    simp only [this, dif_pos]
    rw [hi _ _ _ this.choose_spec hk]

theorem Fits.partner {ρ : ClockMap} {n n' : Nat} (hf : ρ.Fits n n') {w : Val} (hw : Valid n' w) :
    ∃ v, Valid n v ∧ ρ.Agree v w := by
  refine ⟨fun i => match ρ i with | some k => w k | none => 0, ⟨?_, ?_, ?_⟩, ?_⟩
  · cases h : ρ 0 with
    | none => simp [h]
    | some k => exact absurd (hf 0 k h).1.1 (by omega)
  · intro i
    dsimp only
    split
    · exact hw.2.1 _
    · exact le_refl _
  · intro i hi
    cases h : ρ i with
    | none => simp [h]
    | some k => exact absurd (hf i k h).1.2 (by omega)
  · intro i k hk
    simp only [hk]

end ClockMap

/-! ## Zones -/

/-- Two zones do not distinguish valuations that agree. -/
def ZoneAlike (ρ : ClockMap) (z : F) (z' : G) : Prop :=
  ∀ v w, Valid (dim F) v → Valid (dim G) w → ρ.Agree v w → (v ∈ den z ↔ w ∈ den z')

theorem ZoneAlike.univ {ρ : ClockMap} : ZoneAlike ρ (ZoneLib.univ : F) (ZoneLib.univ : G) := by
  intro v w hv hw _
  rw [den_univ, den_univ]
  exact ⟨fun _ => hw, fun _ => hv⟩

theorem ZoneAlike.empty {ρ : ClockMap} : ZoneAlike ρ (ZoneLib.empty : F) (ZoneLib.empty : G) := by
  intro v w _ _ _
  rw [den_empty, den_empty]
  exact Iff.rfl

theorem ZoneAlike.inter {ρ : ClockMap} {a b : F} {a' b' : G} (h : ZoneAlike ρ a a') (h' : ZoneAlike ρ b b') :
    ZoneAlike ρ (ZoneLib.inter a b) (ZoneLib.inter a' b') := by
  intro v w hv hw ha
  rw [den_inter, den_inter]
  exact and_congr (h v w hv hw ha) (h' v w hv hw ha)

theorem ZoneAlike.append {ρ : ClockMap} {a b : F} {a' b' : G} (h : ZoneAlike ρ a a') (h' : ZoneAlike ρ b b') :
    ZoneAlike ρ (ZoneLib.append a b) (ZoneLib.append a' b') := by
  intro v w hv hw ha
  rw [den_append, den_append]
  exact or_congr (h v w hv hw ha) (h' v w hv hw ha)

theorem ZoneAlike.inverse {ρ : ClockMap} {a : F} {a' : G} (h : ZoneAlike ρ a a') :
    ZoneAlike ρ (ZoneLib.inverse a) (ZoneLib.inverse a') := by
  intro v w hv hw ha
  rw [den_inverse, den_inverse]
  exact and_congr ⟨fun _ => hw, fun _ => hv⟩ (not_congr (h v w hv hw ha))

theorem ZoneAlike.constrainEq {ρ : ClockMap} (hf : ρ.Fits (dim F) (dim G)) {a : F} {a' : G} (h : ZoneAlike ρ a a')
    {i k : Nat} (hk : ρ i = some k) (c : Int) : ZoneAlike ρ (ZoneLib.constrainEq a i c) (ZoneLib.constrainEq a' k c) := by
  intro v w hv hw ha
  have := hf i k hk
  rw [den_constrainEq _ _ _ this.1.1 this.1.2, den_constrainEq _ _ _ this.2.1 this.2.2]
  refine and_congr (h v w hv hw ha) ?_
  rw [ha i k hk]

theorem ZoneAlike.isEmpty {ρ : ClockMap} (hi : ρ.Inj) (hf : ρ.Fits (dim F) (dim G)) {a : F} {a' : G}
    (h : ZoneAlike ρ a a') : ZoneLib.isEmpty a = ZoneLib.isEmpty a' := by
  have key : (∃ v, v ∈ den a) ↔ ∃ w, w ∈ den a' := by
    constructor
    · rintro ⟨v, hv⟩
      obtain ⟨w, hw, ha⟩ := hi.partner hf (den_valid hv)
      exact ⟨w, (h v w (den_valid hv) hw ha).1 hv⟩
    · rintro ⟨w, hw⟩
      obtain ⟨v, hv, ha⟩ := hf.partner (den_valid hw)
      exact ⟨v, (h v w hv (den_valid hw) ha).2 hw⟩
  cases h1 : ZoneLib.isEmpty a with
  | false =>
    obtain ⟨w, hw⟩ := key.1 (isEmpty_false_iff.1 h1)
    exact (isEmpty_false_iff.2 ⟨w, hw⟩).symm
  | true =>
    cases h2 : ZoneLib.isEmpty a' with
    | true => rfl
    | false =>
      obtain ⟨v, hv⟩ := key.2 (isEmpty_false_iff.1 h2)
      rw [(ZoneLib.isEmpty_iff a).1 h1] at hv
      cases hv

/-! ## Locations -/

/-- Both locations have no invariant, or alike invariants. -/
inductive InvAlike (ρ : ClockMap) : Option F → Option G → Prop
  | none : InvAlike ρ none none
  | some {z : F} {z' : G} (h : ZoneAlike ρ z z') : InvAlike ρ (some z) (some z')

/-- Two locations with the same names and types and alike invariants. -/
inductive LocAlike (ρ : ClockMap) : LocTree F → LocTree G → Prop
  | leaf {id : LocId} {ty : LocType} {inv : Option F} {inv' : Option G} (h : InvAlike ρ inv inv') :
      LocAlike ρ (.leaf id inv ty) (.leaf id inv' ty)
  | node {id : LocId} {ty : LocType} {inv : Option F} {inv' : Option G} {l r : LocTree F} {l' r' : LocTree G}
      (h : InvAlike ρ inv inv') (hl : LocAlike ρ l l') (hr : LocAlike ρ r r') :
      LocAlike ρ (.node id inv ty l r) (.node id inv' ty l' r')

namespace LocAlike
variable {ρ : ClockMap} {l : LocTree F} {l' : LocTree G}

omit [ZoneLib F] [ZoneLib G] in
theorem eqs [ZoneLib F] [ZoneLib G] (h : LocAlike ρ l l') : l'.id = l.id ∧ l'.ty = l.ty ∧ InvAlike ρ l.inv l'.inv := by
  cases h with
  | leaf h => exact ⟨rfl, rfl, h⟩
  | node h _ _ => exact ⟨rfl, rfl, h⟩

theorem inv (h : LocAlike ρ l l') {v w : Val} (hv : Valid (dim F) v) (hw : Valid (dim G) w) (ha : ρ.Agree v w) :
    v ∈ InvSet l ↔ w ∈ InvSet l' := by
  have := h.eqs.2.2
  unfold InvSet
  rw [Set.mem_ofPred_eq, Set.mem_ofPred_eq]
  generalize l.inv = a at this
  generalize l'.inv = b at this
  cases this with
  | none => simp
  | some hz =>
    simp only [Option.some.injEq, forall_eq']
    exact hz v w hv hw ha

theorem compose {r : LocTree F} {r' : LocTree G} (h : LocAlike ρ l l') (h' : LocAlike ρ r r') {c : CompType}
    {x : LocTree F} (hx : LocTree.compose l r c = .ok x) :
    ∃ x', LocTree.compose l' r' c = .ok x' ∧ LocAlike ρ x x' := by
  obtain ⟨e1, e2, e3⟩ := h.eqs
  obtain ⟨e1', e2', e3'⟩ := h'.eqs
  have hinv : InvAlike ρ (LocTree.composeInv l.inv r.inv) (LocTree.composeInv l'.inv r'.inv) := by
    generalize l.inv = a at e3 ⊢
    generalize l'.inv = b at e3 ⊢
    generalize r.inv = a' at e3' ⊢
    generalize r'.inv = b' at e3' ⊢
    cases e3 with
    | none => exact e3'
    | some hz =>
      cases e3' with
      | none => exact .some hz
      | some hz' => exact .some (hz.inter hz')
  cases c with
  | conjunction =>
    cases hx
    refine ⟨_, rfl, ?_⟩
    rw [e1, e2, e1', e2']
    exact .node hinv h h'
  | composition =>
    cases hx
    refine ⟨_, rfl, ?_⟩
    rw [e1, e2, e1', e2']
    exact .node hinv h h'
  | quotient => cases hx
  | simple => cases hx

theorem merge {r : LocTree F} {r' : LocTree G} (h : LocAlike ρ l l') (h' : LocAlike ρ r r') :
    LocAlike ρ (LocTree.merge l r) (LocTree.merge l' r') := by
  obtain ⟨e1, e2, _⟩ := h.eqs
  obtain ⟨e1', e2', _⟩ := h'.eqs
  unfold LocTree.merge
  rw [e1, e2, e1', e2']
  exact .node .none h h'

theorem universal : LocAlike ρ (LocTree.universalLoc : LocTree F) (LocTree.universalLoc : LocTree G) := .leaf .none

theorem error (hf : ρ.Fits (dim F) (dim G)) {i k : Nat} (hk : ρ i = some k) :
    LocAlike ρ (LocTree.errorLoc i : LocTree F) (LocTree.errorLoc k : LocTree G) :=
  .leaf (.some (ZoneAlike.univ.constrainEq hf hk 0))

theorem invOrUniv (h : LocAlike ρ l l') : ZoneAlike ρ l.invOrUniv l'.invOrUniv := by
  have := h.eqs.2.2
  unfold LocTree.invOrUniv
  generalize l.inv = a at this
  generalize l'.inv = b at this
  cases this with
  | none => exact ZoneAlike.univ
  | some hz => exact hz

theorem applyInvariants (h : LocAlike ρ l l') {z : F} {z' : G} (hz : ZoneAlike ρ z z') :
    ZoneAlike ρ (l.applyInvariants z) (l'.applyInvariants z') := by
  have := h.eqs.2.2
  unfold LocTree.applyInvariants
  generalize l.inv = a at this
  generalize l'.inv = b at this
  cases this with
  | none => exact hz
  | some hi => exact hz.inter hi

theorem getLeft (h : LocAlike ρ l l') {x : LocTree F} (hx : l.getLeft = .ok x) :
    ∃ x', l'.getLeft = .ok x' ∧ LocAlike ρ x x' := by
  cases h with
  | leaf => cases hx
  | node _ hl _ => cases hx; exact ⟨_, rfl, hl⟩

theorem getRight (h : LocAlike ρ l l') {x : LocTree F} (hx : l.getRight = .ok x) :
    ∃ x', l'.getRight = .ok x' ∧ LocAlike ρ x x' := by
  cases h with
  | leaf => cases hx
  | node _ _ hr => cases hx; exact ⟨_, rfl, hr⟩

end LocAlike

/-! ## Transitions -/

/-- Two transitions with the same name, alike guards and targets, and the same assignments to the clocks that are
kept. -/
structure TransAlike (ρ : ClockMap) (t : Transition F) (t' : Transition G) : Prop where
  id : t'.id = t.id
  guard : ZoneAlike ρ t.guard t'.guard
  target : LocAlike ρ t.target t'.target
  updates : t'.updates = ρ.updates t.updates

namespace TransAlike
variable {ρ : ClockMap}

theorem withoutId {l : LocTree F} {l' : LocTree G} (h : LocAlike ρ l l') :
    TransAlike ρ (Transition.withoutId l) (Transition.withoutId l') := ⟨rfl, ZoneAlike.univ, h, rfl⟩

theorem canTake {t : Transition F} {t' : Transition G} (h : TransAlike ρ t t') (hf : ρ.Fits (dim F) (dim G))
    (hu : UpdatesOk t.updates (dim F)) (hc : ρ.Coherent t.updates) {v w : Val} (hv : Valid (dim F) v)
    (hw : Valid (dim G) w) (ha : ρ.Agree v w) : CanTake t v ↔ CanTake t' w := by
  unfold CanTake
  rw [h.updates]
  exact and_congr (h.guard v w hv hw ha) (h.target.inv (runUpdates_valid hu hv)
    (runUpdates_valid (ρ.updatesOk hf hu) hw) (ha.updates hc))

theorem allowed {t : Transition F} {t' : Transition G} (h : TransAlike ρ t t') (hf : ρ.Fits (dim F) (dim G))
    (hi : ρ.Inj) (hu : UpdatesOk t.updates (dim F)) (hn : NoConflict t.updates) :
    ZoneAlike ρ t.allowed t'.allowed := by
  intro v w hv hw ha
  rw [mem_allowed hu hn, mem_allowed (by rw [h.updates]; exact ρ.updatesOk hf hu)
    (by rw [h.updates]; exact ClockMap.noConflict hi hn)]
  exact h.canTake hf hu (hi.coherent _) hv hw ha

end TransAlike

theorem combinations_eq {ls rs : List (Transition F)} {c : CompType} (hc : c.IsProd) :
    ∃ comb : Transition F → Transition F → Transition F,
      (∀ l r, Transition.combine l r c = .ok (comb l r)) ∧
      Transition.combinations ls rs c = .ok (ls.flatMap fun l => rs.map fun r => comb l r) := by
  have hex : ∀ p : Transition F × Transition F, ∃ t, Transition.combine p.1 p.2 c = .ok t := by
    intro p
    obtain ⟨i, x, _, h⟩ := combine_ok (l := p.1) (r := p.2) hc
    exact ⟨_, h⟩
  choose g hg using hex
  refine ⟨fun l r => g (l, r), fun l r => hg (l, r), ?_⟩
  unfold Transition.combinations
  have : ∀ ps : List (Transition F × Transition F),
      ps.mapM (fun p => Transition.combine p.1 p.2 c) = .ok (ps.map g) := by
    intro ps
    induction ps with
    | nil => rfl
    | cons p ps ih => rw [List.mapM_cons, hg, ih]; rfl
  rw [this, List.map_flatMap]
  simp only [List.map_map, Function.comp_def]

theorem combinations_alike {ρ : ClockMap} {ls rs : List (Transition F)} {ls' rs' : List (Transition G)} {c : CompType}
    (hc : c.IsProd) (hl : List.Forall₂ (TransAlike ρ) ls ls') (hr : List.Forall₂ (TransAlike ρ) rs rs')
    {ts : List (Transition F)} (h : Transition.combinations ls rs c = .ok ts) :
    ∃ ts', Transition.combinations ls' rs' c = .ok ts' ∧ List.Forall₂ (TransAlike ρ) ts ts' := by
  obtain ⟨g, hg, e⟩ := combinations_eq (ls := ls) (rs := rs) hc
  obtain ⟨g', hg', e'⟩ := combinations_eq (ls := ls') (rs := rs') hc
  rw [e] at h
  cases h
  refine ⟨_, e', ?_⟩
  refine List.rel_flatMap hl fun l l' hll => ?_
  refine List.rel_map (R := TransAlike ρ) ?_ hr
  intro r r' hrr
  have h1 := hg l r
  have h2 := hg' l' r'
  unfold Transition.combine at h1 h2
  obtain ⟨x, hx, h1⟩ := bind_ok h1
  obtain ⟨x', hx', hxx⟩ := hll.target.compose hrr.target hx
  rw [hx', ok_bind] at h2
  have hup : l'.updates ++ r'.updates = ρ.updates (l.updates ++ r.updates) := by
    rw [ClockMap.updates_append, hll.updates, hrr.updates]
  rcases hc with rfl | rfl
  · simp only [ok_bind, Except.ok.injEq] at h1 h2
    show TransAlike ρ (g l r) (g' l' r')
    rw [← h1, ← h2]
    exact ⟨by rw [hll.id, hrr.id], hll.guard.inter hrr.guard, hxx, hup⟩
  · simp only [ok_bind, Except.ok.injEq] at h1 h2
    show TransAlike ρ (g l r) (g' l' r')
    rw [← h1, ← h2]
    exact ⟨by rw [hll.id, hrr.id], hll.guard.inter hrr.guard, hxx, hup⟩

/-! ## Systems -/

/-- Two compiled components are alike. -/
structure CompAlike (ρ : ClockMap) (x : CompComp F) (x' : CompComp G) : Prop where
  inputs : x'.inputs = x.inputs
  outputs : x'.outputs = x.outputs
  initial : (x.initial = none ∧ x'.initial = none) ∨
    ∃ l l', x.initial = some l ∧ x'.initial = some l' ∧ LocAlike ρ l l'
  edges : ∀ l, (Sys.comp x).IsLoc l → ∃ es es', x.edges.lookup l.id = some es ∧ x'.edges.lookup l.id = some es' ∧
    List.Forall₂ (fun y y' => y'.1 = y.1 ∧ TransAlike ρ y.2 y'.2) es es'

namespace Sys

/-- The transitions of the system assign to real clocks, and never two values to one clock. -/
def Calm (s : Sys F) : Prop :=
  ∀ l a trans, s.IsLoc l → s.hasAction a = true → s.next l a = .ok trans → ∀ t ∈ trans,
    UpdatesOk t.updates (dim F) ∧ NoConflict t.updates

/-- Two systems are alike: they are built in the same way from alike components. -/
def Alike (ρ : ClockMap) : Sys F → Sys G → Prop
  | comp x, comp x' => CompAlike ρ x x'
  | composition l r i o lu ru c, composition l' r' i' o' lu' ru' c' =>
    Alike ρ l l' ∧ Alike ρ r r' ∧ i' = i ∧ o' = o ∧ lu' = lu ∧ ru' = ru ∧ c' = c
  | conjunction l r i o, conjunction l' r' i' o' => Alike ρ l l' ∧ Alike ρ r r' ∧ i' = i ∧ o' = o
  | quotient T S i o q n, quotient T' S' i' o' q' n' =>
    Alike ρ T T' ∧ Alike ρ S S' ∧ i' = i ∧ o' = o ∧ n' = n ∧ ρ q = some q' ∧ ρ.Inj ∧ T.Calm ∧ S.Calm
  | _, _ => False

theorem Alike.actions {ρ : ClockMap} {s : Sys F} {s' : Sys G} (h : Alike ρ s s') :
    s'.inputs = s.inputs ∧ s'.outputs = s.outputs := by
  cases s <;> cases s' <;> try exact h.elim
  · exact ⟨CompAlike.inputs h, CompAlike.outputs h⟩
  · exact ⟨h.2.2.1, h.2.2.2.1⟩
  · exact ⟨h.2.2.1, h.2.2.2⟩
  · exact ⟨h.2.2.1, h.2.2.2.1⟩

theorem Alike.hasAction {ρ : ClockMap} {s : Sys F} {s' : Sys G} (h : Alike ρ s s') (a : String) :
    s'.hasAction a = s.hasAction a := by
  unfold Sys.hasAction
  rw [h.actions.1, h.actions.2]

theorem Alike.initial {ρ : ClockMap} {s : Sys F} {s' : Sys G} (h : Alike ρ s s') {o : Option (LocTree F)}
    (hl : s.initialLoc = .ok o) : (o = none ∧ s'.initialLoc = .ok none) ∨
      ∃ l l', o = some l ∧ s'.initialLoc = .ok (some l') ∧ LocAlike ρ l l' := by
  induction s generalizing s' o with
  | comp x =>
    cases s' <;> try exact h.elim
    cases hl
    rcases CompAlike.initial h with ⟨h1, h2⟩ | ⟨l, l', h1, h2, h3⟩
    · exact .inl ⟨h1, congrArg Except.ok h2⟩
    · exact .inr ⟨l, l', h1, congrArg Except.ok h2, h3⟩
  | composition l r i o lu ru c ihl ihr =>
    cases s' <;> try exact h.elim
    unfold initialLoc at hl ⊢
    obtain ⟨a, ha, hl⟩ := bind_ok hl
    rcases ihl h.1 ha with ⟨rfl, h1⟩ | ⟨x, x', rfl, h1, h2⟩
    · cases hl
      rw [h1, ok_bind]
      exact .inl ⟨rfl, rfl⟩
    · rw [h1, ok_bind]
      dsimp only at hl ⊢
      obtain ⟨b, hb, hl⟩ := bind_ok hl
      rcases ihr h.2.1 hb with ⟨rfl, h3⟩ | ⟨y, y', rfl, h3, h4⟩
      · cases hl
        rw [h3, ok_bind]
        exact .inl ⟨rfl, rfl⟩
      · rw [h3, ok_bind]
        dsimp only at hl ⊢
        obtain ⟨z, hz, hl⟩ := bind_ok hl
        cases hl
        obtain ⟨z', hz', hzz⟩ := h2.compose h4 hz
        rw [hz', ok_bind]
        exact .inr ⟨_, _, rfl, rfl, hzz⟩
  | conjunction l r i o ihl ihr =>
    cases s' <;> try exact h.elim
    unfold initialLoc at hl ⊢
    obtain ⟨a, ha, hl⟩ := bind_ok hl
    rcases ihl h.1 ha with ⟨rfl, h1⟩ | ⟨x, x', rfl, h1, h2⟩
    · cases hl
      rw [h1, ok_bind]
      exact .inl ⟨rfl, rfl⟩
    · rw [h1, ok_bind]
      dsimp only at hl ⊢
      obtain ⟨b, hb, hl⟩ := bind_ok hl
      rcases ihr h.2.1 hb with ⟨rfl, h3⟩ | ⟨y, y', rfl, h3, h4⟩
      · cases hl
        rw [h3, ok_bind]
        exact .inl ⟨rfl, rfl⟩
      · rw [h3, ok_bind]
        dsimp only at hl ⊢
        obtain ⟨z, hz, hl⟩ := bind_ok hl
        cases hl
        obtain ⟨z', hz', hzz⟩ := h2.compose h4 hz
        rw [hz', ok_bind]
        exact .inr ⟨_, _, rfl, rfl, hzz⟩
  | quotient l r i o q n ihl ihr =>
    cases s' <;> try exact h.elim
    unfold initialLoc at hl ⊢
    obtain ⟨a, ha, hl⟩ := bind_ok hl
    rcases ihl h.1 ha with ⟨rfl, h1⟩ | ⟨x, x', rfl, h1, h2⟩
    · cases hl
      rw [h1, ok_bind]
      exact .inl ⟨rfl, rfl⟩
    · rw [h1, ok_bind]
      dsimp only at hl ⊢
      obtain ⟨b, hb, hl⟩ := bind_ok hl
      rcases ihr h.2.1 hb with ⟨rfl, h3⟩ | ⟨y, y', rfl, h3, h4⟩
      · cases hl
        rw [h3, ok_bind]
        exact .inl ⟨rfl, rfl⟩
      · rw [h3, ok_bind]
        cases hl
        exact .inr ⟨_, _, rfl, rfl, h2.merge h4⟩

theorem forall2_filter_rel {α β : Type} {R : α → β → Prop} {p : α → Bool} {q : β → Bool}
    (hpq : ∀ a b, R a b → p a = q b) : ∀ {l : List α} {m : List β}, List.Forall₂ R l m →
      List.Forall₂ R (l.filter p) (m.filter q) := by
  intro l m h
  induction h with
  | nil => exact .nil
  | @cons a b l m hab _ ih =>
    rw [List.filter_cons, List.filter_cons, ← hpq a b hab]
    split
    · exact .cons hab ih
    · exact ih

theorem foldl_append_alike {ρ : ClockMap} {α β : Type} {R : α → β → Prop} {f : α → F} {f' : β → G}
    (hf : ∀ a b, R a b → ZoneAlike ρ (f a) (f' b)) : ∀ {l : List α} {m : List β}, List.Forall₂ R l m →
      ∀ {z : F} {z' : G}, ZoneAlike ρ z z' →
      ZoneAlike ρ (l.foldl (fun g a => append g (f a)) z) (m.foldl (fun g a => append g (f' a)) z') := by
  intro l m h
  induction h with
  | nil => exact fun hz => hz
  | cons hab _ ih => exact fun hz => ih (hz.append (hf _ _ hab))

theorem ids_alike {ρ : ClockMap} {l : List (Transition F)} {m : List (Transition G)}
    (h : List.Forall₂ (TransAlike ρ) l m) : m.map (·.id) = l.map (·.id) := by
  induction h with
  | nil => rfl
  | cons hab _ ih => rw [List.map_cons, List.map_cons, hab.id, ih]

theorem quotientMoves_alike {ρ : ClockMap} (hf : ρ.Fits (dim F) (dim G)) (hi : ρ.Inj) {T S : Sys F} {T' S' : Sys G}
    (hT : Alike ρ T T') (hS : Alike ρ S S') {q q' : Nat} (hq : ρ q = some q') {n a : String} {lt ls : LocTree F}
    {lt' ls' : LocTree G} (hlt : LocAlike ρ lt lt') (hls : LocAlike ρ ls ls') {tt st : List (Transition F)}
    {tt' st' : List (Transition G)}
    (htt : List.Forall₂ (fun t t' => TransAlike ρ t t' ∧ UpdatesOk t.updates (dim F) ∧ NoConflict t.updates) tt tt')
    (hst : List.Forall₂ (fun t t' => TransAlike ρ t t' ∧ UpdatesOk t.updates (dim F) ∧ NoConflict t.updates) st st') :
    List.Forall₂ (TransAlike ρ) (quotientMoves T S q n lt ls a tt st) (quotientMoves T' S' q' n lt' ls' a tt' st') := by
  have hal : ∀ {l : LocTree F} {l' : LocTree G}, LocAlike ρ l l' → ∀ t t',
      (TransAlike ρ t t' ∧ UpdatesOk t.updates (dim F) ∧ NoConflict t.updates) →
      ZoneAlike ρ (allowedFed l t) (allowedFed l' t') := by
    intro l l' hl t t' h
    exact hl.applyInvariants (h.1.allowed hf hi h.2.1 h.2.2)
  have htt0 : List.Forall₂ (TransAlike ρ) tt tt' := htt.imp fun _ _ h => h.1
  have hst0 : List.Forall₂ (TransAlike ρ) st st' := hst.imp fun _ _ h => h.1
  have hreset : ([⟨q', 0⟩] : List CUpdate) = ρ.updates [⟨q, 0⟩] := by simp [ClockMap.updates, hq]
  unfold quotientMoves
  rw [hT.hasAction, hS.hasAction, hT.actions.2, hS.actions.2]
  dsimp only
  refine forall2_filter_rel (fun t t' h => ?_) ?_
  · rw [h.guard.isEmpty hi hf]
  refine List.rel_append ?_ ?_
  · refine List.rel_append ?_ ?_
    · refine List.rel_append ?_ ?_
      · refine List.rel_append ?_ ?_
        · refine List.rel_append ?_ ?_
          · split
            · refine List.rel_flatMap htt fun t t' h => ?_
              refine List.rel_map (R := fun t t' => TransAlike ρ t t' ∧ UpdatesOk t.updates (dim F) ∧
                NoConflict t.updates) ?_ hst
              intro s s' h'
              dsimp only
              exact ⟨by rw [h.1.id, h'.1.id], (hal hlt t t' h).inter (hal hls s s' h'), h.1.target.merge h'.1.target,
                by rw [ClockMap.updates_append, h.1.updates, h'.1.updates]⟩
            · exact .nil
          · split
            · refine List.rel_map (R := fun t t' => TransAlike ρ t t' ∧ UpdatesOk t.updates (dim F) ∧
                NoConflict t.updates) ?_ hst
              intro s s' h'
              dsimp only
              exact ⟨by rw [h'.1.id], hal hls s s' h', hlt.merge h'.1.target, h'.1.updates⟩
            · exact .nil
        · split
          · refine .cons ⟨by rw [ids_alike hst0], ?_, LocAlike.universal, rfl⟩ .nil
            exact (hls.applyInvariants ZoneAlike.univ).inverse.append
              (foldl_append_alike (hal hls) hst ZoneAlike.empty).inverse
          · exact .cons ⟨rfl, (hls.applyInvariants ZoneAlike.univ).inverse, LocAlike.universal, rfl⟩ .nil
      · split
        · refine List.rel_map (R := fun t t' => TransAlike ρ t t' ∧ UpdatesOk t.updates (dim F) ∧
            NoConflict t.updates) ?_ hst
          intro s s' h'
          dsimp only
          exact ⟨by rw [h'.1.id, ids_alike htt0], (hal hls s s' h').inter
            (foldl_append_alike (hal hlt) htt ZoneAlike.empty).inverse, LocAlike.error hf hq, hreset⟩
        · exact .nil
    · split
      · exact .cons ⟨rfl, hlt.invOrUniv.inverse.inter hls.invOrUniv, LocAlike.error hf hq, hreset⟩ .nil
      · exact .nil
  · split
    · refine List.rel_map (R := fun t t' => TransAlike ρ t t' ∧ UpdatesOk t.updates (dim F) ∧
        NoConflict t.updates) ?_ htt
      intro t t' h
      dsimp only
      exact ⟨by rw [h.1.id], hls.applyInvariants (hal hlt t t' h), h.1.target.merge hls, h.1.updates⟩
    · exact .nil

theorem forall2_with {α β : Type} {R : α → β → Prop} {P : α → Prop} : ∀ {l : List α} {m : List β},
    List.Forall₂ R l m → (∀ a ∈ l, P a) → List.Forall₂ (fun a b => R a b ∧ P a) l m := by
  intro l m h
  induction h with
  | nil => exact fun _ => .nil
  | cons hab _ ih => exact fun hp => .cons ⟨hab, hp _ (by simp)⟩ (ih fun a ha => hp a (by simp [ha]))

theorem LocAlike.special {ρ : ClockMap} {l : LocTree F} {l' : LocTree G} (h : LocAlike ρ l l') :
    l'.isUniversal = l.isUniversal ∧ l'.isInconsistent = l.isInconsistent := by
  unfold LocTree.isUniversal LocTree.isInconsistent
  rw [h.eqs.2.1]
  exact ⟨rfl, rfl⟩

/-- Alike systems have alike transitions in alike locations. -/
theorem Alike.next {ρ : ClockMap} (hf : ρ.Fits (dim F) (dim G)) {s : Sys F} {s' : Sys G} (h : Alike ρ s s')
    {l : LocTree F} {l' : LocTree G} (hl : s.IsLoc l) (hll : LocAlike ρ l l') {a : String}
    {ts : List (Transition F)} (hn : s.next l a = .ok ts) :
    ∃ ts', s'.next l' a = .ok ts' ∧ List.Forall₂ (TransAlike ρ) ts ts' := by
  induction s generalizing s' l l' ts with
  | comp x =>
    cases s' <;> try exact h.elim
    rename_i x'
    have hc : CompAlike ρ x x' := h
    unfold Sys.next CompComp.next at hn ⊢
    rw [hc.inputs, hc.outputs, (LocAlike.special hll).1, (LocAlike.special hll).2, hll.eqs.1]
    split at hn
    · cases hn
    rename_i h1
    rw [if_neg h1]
    split at hn
    · rename_i h2
      rw [if_pos h2]
      cases hn
      exact ⟨_, rfl, .cons (TransAlike.withoutId hll) .nil⟩
    rename_i h2
    rw [if_neg h2]
    split at hn
    · rename_i h3
      rw [if_pos h3]
      cases hn
      exact ⟨_, rfl, .cons (TransAlike.withoutId hll) .nil⟩
    rename_i h3
    rw [if_neg h3]
    obtain ⟨es, es', he, he', hes⟩ := hc.edges l hl
    rw [he] at hn
    rw [he']
    dsimp only at hn ⊢
    cases hn
    refine ⟨_, rfl, ?_⟩
    refine List.rel_map (R := fun y y' => y'.1 = y.1 ∧ TransAlike ρ y.2 y'.2) (fun _ _ h => h.2) ?_
    exact forall2_filter_rel (fun y y' h => by rw [h.1]) hes
  | composition s1 s2 i o lu ru c ih1 ih2 =>
    cases s' <;> try exact h.elim
    obtain ⟨hA, hB, rfl, rfl, rfl, rfl, rfl⟩ := h
    obtain ⟨x, y, hx, hy, hxy⟩ := hl
    unfold Sys.next at hn ⊢
    split at hn
    · cases hn
    rename_i h1
    rw [if_neg h1]
    have hgl := (compose_parts hxy).1
    have hgr := (compose_parts hxy).2.1
    obtain ⟨x', hgl', hxx⟩ := hll.getLeft hgl
    obtain ⟨y', hgr', hyy⟩ := hll.getRight hgr
    rw [hgl, ok_bind, hgr, ok_bind] at hn
    rw [hgl', ok_bind, hgr', ok_bind]
    split at hn
    · rename_i h2
      rw [if_pos h2]
      obtain ⟨ls, hls, hn⟩ := bind_ok hn
      obtain ⟨rs, hrs, hn⟩ := bind_ok hn
      obtain ⟨ls', hls', hl2⟩ := ih1 hA hx hxx hls
      obtain ⟨rs', hrs', hr2⟩ := ih2 hB hy hyy hrs
      rw [hls', ok_bind, hrs', ok_bind]
      exact combinations_alike (.inr rfl) hl2 hr2 hn
    rename_i h2
    rw [if_neg h2]
    split at hn
    · rename_i h3
      rw [if_pos h3]
      obtain ⟨ls, hls, hn⟩ := bind_ok hn
      obtain ⟨ls', hls', hl2⟩ := ih1 hA hx hxx hls
      rw [hls', ok_bind]
      exact combinations_alike (.inr rfl) hl2 (.cons (TransAlike.withoutId hyy) .nil) hn
    rename_i h3
    rw [if_neg h3]
    split at hn
    · rename_i h4
      rw [if_pos h4]
      obtain ⟨rs, hrs, hn⟩ := bind_ok hn
      obtain ⟨rs', hrs', hr2⟩ := ih2 hB hy hyy hrs
      rw [hrs', ok_bind]
      exact combinations_alike (.inr rfl) (.cons (TransAlike.withoutId hxx) .nil) hr2 hn
    · cases hn
  | conjunction s1 s2 i o ih1 ih2 =>
    cases s' <;> try exact h.elim
    obtain ⟨hA, hB, rfl, rfl⟩ := h
    obtain ⟨x, y, hx, hy, hxy⟩ := hl
    unfold Sys.next at hn ⊢
    split at hn
    · cases hn
    rename_i h1
    rw [if_neg h1]
    have hgl := (compose_parts hxy).1
    have hgr := (compose_parts hxy).2.1
    obtain ⟨x', hgl', hxx⟩ := hll.getLeft hgl
    obtain ⟨y', hgr', hyy⟩ := hll.getRight hgr
    rw [hgl, ok_bind, hgr, ok_bind] at hn
    rw [hgl', ok_bind, hgr', ok_bind]
    obtain ⟨ls, hls, hn⟩ := bind_ok hn
    obtain ⟨rs, hrs, hn⟩ := bind_ok hn
    obtain ⟨ls', hls', hl2⟩ := ih1 hA hx hxx hls
    obtain ⟨rs', hrs', hr2⟩ := ih2 hB hy hyy hrs
    rw [hls', ok_bind, hrs', ok_bind]
    exact combinations_alike (.inl rfl) hl2 hr2 hn
  | quotient T S i o q n ih1 ih2 =>
    cases s' <;> try exact h.elim
    rename_i T' S' i' o' q' n'
    obtain ⟨hA, hB, rfl, rfl, rfl, hq, hi, hcT, hcS⟩ := h
    unfold Sys.next at hn ⊢
    rw [(LocAlike.special hll).1, (LocAlike.special hll).2]
    split at hn
    · cases hn
    rename_i h1
    rw [if_neg h1]
    split at hn
    · rename_i h2
      rw [if_pos h2]
      split at hn
      · rename_i h3
        rw [if_pos h3]
        cases hn
        exact ⟨_, rfl, .cons ⟨rfl, ZoneAlike.univ.constrainEq hf hq 0, hll, rfl⟩ .nil⟩
      · rename_i h3
        rw [if_neg h3]
        cases hn
        exact ⟨_, rfl, .nil⟩
    rename_i h2
    rw [if_neg h2]
    split at hn
    · rename_i h3
      rw [if_pos h3]
      cases hn
      exact ⟨_, rfl, .cons (TransAlike.withoutId hll) .nil⟩
    rename_i h3
    rw [if_neg h3]
    rcases hl with ⟨x, y, hx, hy, rfl⟩ | rfl | rfl
    · obtain ⟨x', hgl', hxx⟩ := hll.getLeft (x := x) rfl
      obtain ⟨y', hgr', hyy⟩ := hll.getRight (x := y) rfl
      rw [hgl', ok_bind, hgr', ok_bind]
      change ((T.ifAvailable a (T.next x a)) >>= _) = _ at hn
      obtain ⟨tt, htt, hn⟩ := bind_ok hn
      change ((S.ifAvailable a (S.next y a)) >>= _) = _ at hn
      obtain ⟨st, hst, hn⟩ := bind_ok hn
      have key : ∀ {U : Sys F} {U' : Sys G} {z : LocTree F} {z' : LocTree G} {us : List (Transition F)},
          Alike ρ U U' → U.IsLoc z → U.Calm → (∀ {us}, U.next z a = .ok us → ∃ us', U'.next z' a = .ok us' ∧
            List.Forall₂ (TransAlike ρ) us us') → U.ifAvailable a (U.next z a) = .ok us →
          ∃ us', U'.ifAvailable a (U'.next z' a) = .ok us' ∧
            List.Forall₂ (fun t t' => TransAlike ρ t t' ∧ UpdatesOk t.updates (dim F) ∧ NoConflict t.updates) us us' := by
        intro U U' z z' us hU hz hcalm ih hus
        unfold ifAvailable at hus ⊢
        rw [hU.hasAction]
        split at hus
        · rename_i hact
          rw [if_pos hact]
          obtain ⟨us', h1, h2⟩ := ih hus
          exact ⟨us', h1, forall2_with h2 (hcalm z a us hz hact hus)⟩
        · rename_i hact
          rw [if_neg hact]
          cases hus
          exact ⟨_, rfl, .nil⟩
      obtain ⟨tt', htt', h2⟩ := key hA hx hcT (ih1 hA hx hxx) htt
      obtain ⟨st', hst', h2'⟩ := key hB hy hcS (ih2 hB hy hyy) hst
      rw [htt', ok_bind, hst', ok_bind]
      cases hn
      exact ⟨_, rfl, quotientMoves_alike hf hi hA hB hq hxx hyy h2 h2'⟩
    · exact absurd rfl h3
    · exact absurd rfl h2

end Sys
end Reveaal
