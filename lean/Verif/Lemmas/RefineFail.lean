import Verif.Lemmas.Refine

/-! # What a failed refinement check has seen -/

namespace Reveaal
open ZoneLib
variable {F : Type} [ZoneLib F]

namespace Refine

/-- The pair that two transitions lead to. -/
def NewPair (ts1 ts2 : TS F) (t1 t2 : Transition F) (cur : StatePair F) (b : Bool) (q : StatePair F) : Prop :=
  let left := if b then t1.target else t2.target
  let right := if b then t2.target else t1.target
  StatePair.extrapolate ts1 ts2 ⟨left, right,
    right.applyInvariants (left.applyInvariants (postZone t1 t2 cur.zone))⟩ = .ok q

/-- After the two transitions the left side can be where the right side cannot follow. -/
def Cut (t1 t2 : Transition F) (cur : StatePair F) (b : Bool) : Prop :=
  let left := if b then t1.target else t2.target
  let right := if b then t2.target else t1.target
  let sInv := left.applyInvariants (postZone t1 t2 cur.zone)
  ∃ w ∈ den sInv, w ∉ den (down (right.applyInvariants sInv))

theorem buildPair_any {ts1 ts2 : TS F} {t1 t2 : Transition F} {cur : StatePair F} {b r : Bool}
    {c c' : RefCtx F} (h : buildPair ts1 ts2 t1 t2 cur b c = .ok (r, c')) :
    (∀ q ∈ c'.waiting.queue, q ∈ c.waiting.queue ∨ NewPair ts1 ts2 t1 t2 cur b q) ∧
      (r = false → Cut t1 t2 cur b) := by
  unfold buildPair at h
  unfold NewPair Cut postZone
  dsimp only at h ⊢
  generalize (if b = true then t1.target else t2.target) = left at h ⊢
  generalize (if b = true then t2.target else t1.target) = right at h ⊢
  split at h
  · cases h; exact ⟨fun _ h => .inl h, by simp⟩
  split at h
  · cases h; exact ⟨fun _ h => .inl h, by simp⟩
  split at h
  · rename_i hs
    cases h
    refine ⟨fun _ h => .inl h, fun _ => ?_⟩
    have hs : ¬ _ := fun h => absurd ((subsetEq_iff _ _).2 h) (by simpa using hs)
    exact Set.not_subset.1 hs
  · obtain ⟨new, hn, h⟩ := bind_ok h
    split at h
    · cases h
      refine ⟨fun q hq => ?_, by simp⟩
      simp only [Waiting.put_queue] at hq
      rcases List.mem_cons.1 hq with rfl | hq
      · exact .inr hn
      · exact .inl hq
    · cases h; exact ⟨fun _ h => .inl h, by simp⟩

theorem tryPairsInner_any {ts1 ts2 : TS F} {t1 : Transition F} {cur : StatePair F} {b : Bool} :
    ∀ {tr2 : List (Transition F)} {c c' : RefCtx F} {r : Bool},
    tryPairsInner ts1 ts2 t1 cur b tr2 c = .ok (r, c') →
    (∀ q ∈ c'.waiting.queue, q ∈ c.waiting.queue ∨ ∃ t2 ∈ tr2, NewPair ts1 ts2 t1 t2 cur b q) ∧
      (r = false → ∃ t2 ∈ tr2, Cut t1 t2 cur b) := by
  intro tr2
  induction tr2 with
  | nil => intro c c' r h; cases h; exact ⟨fun _ h => .inl h, by simp⟩
  | cons t tl ih =>
    intro c c' r h
    rw [tryPairsInner] at h
    obtain ⟨⟨r1, c1⟩, h1, h⟩ := bind_ok h
    obtain ⟨a1, a2⟩ := buildPair_any h1
    cases r1 with
    | false =>
      cases h
      exact ⟨fun q hq => (a1 q hq).imp id fun h => ⟨t, by simp, h⟩, fun _ => ⟨t, by simp, a2 rfl⟩⟩
    | true =>
      obtain ⟨b1, b2⟩ := ih h
      refine ⟨fun q hq => ?_, fun hr => ?_⟩
      · rcases b1 q hq with hq | ⟨t2, ht2, hq⟩
        · exact (a1 q hq).imp id fun h => ⟨t, by simp, h⟩
        · exact .inr ⟨t2, by simp [ht2], hq⟩
      · obtain ⟨t2, ht2, hq⟩ := b2 hr
        exact ⟨t2, by simp [ht2], hq⟩

theorem tryPairs_any {ts1 ts2 : TS F} {tr2 : List (Transition F)} {cur : StatePair F} {b : Bool} :
    ∀ {tr1 : List (Transition F)} {c c' : RefCtx F} {r : Bool},
    tryPairs ts1 ts2 tr2 cur b tr1 c = .ok (r, c') →
    (∀ q ∈ c'.waiting.queue, q ∈ c.waiting.queue ∨
        ∃ t1 ∈ tr1, ∃ t2 ∈ tr2, NewPair ts1 ts2 t1 t2 cur b q) ∧
      (r = false → ∃ t1 ∈ tr1, ∃ t2 ∈ tr2, Cut t1 t2 cur b) := by
  intro tr1
  induction tr1 with
  | nil => intro c c' r h; cases h; exact ⟨fun _ h => .inl h, by simp⟩
  | cons t tl ih =>
    intro c c' r h
    rw [tryPairs] at h
    obtain ⟨⟨r1, c1⟩, h1, h⟩ := bind_ok h
    obtain ⟨a1, a2⟩ := tryPairsInner_any h1
    cases r1 with
    | false =>
      cases h
      exact ⟨fun q hq => (a1 q hq).imp id fun h => ⟨t, by simp, h⟩, fun _ => ⟨t, by simp, a2 rfl⟩⟩
    | true =>
      obtain ⟨b1, b2⟩ := ih h
      refine ⟨fun q hq => ?_, fun hr => ?_⟩
      · rcases b1 q hq with hq | ⟨t2, ht2, hq⟩
        · exact (a1 q hq).imp id fun h => ⟨t, by simp, h⟩
        · exact .inr ⟨t2, by simp [ht2], hq⟩
      · obtain ⟨t2, ht2, hq⟩ := b2 hr
        exact ⟨t2, by simp [ht2], hq⟩

/-- The comparison of one action failed. -/
def BadAct (tr1 tr2 : List (Transition F)) (cur : StatePair F) (b : Bool) : Prop :=
  (∃ u ∈ den cur.zone, (∃ t ∈ tr1, u ∈ den t.allowed) ∧ ∀ t ∈ tr2, u ∉ den t.allowed) ∨
    ∃ t1 ∈ tr1, ∃ t2 ∈ tr2, Cut t1 t2 cur b

theorem validPairs_any {ts1 ts2 : TS F} {tr1 tr2 : List (Transition F)} {cur : StatePair F} {b : Bool}
    {c c' : RefCtx F} {r : PairResult} (h : validPairs ts1 ts2 tr1 tr2 cur b c = .ok (r, c')) :
    (∀ q ∈ c'.waiting.queue, q ∈ c.waiting.queue ∨
        ∃ t1 ∈ tr1, ∃ t2 ∈ tr2, NewPair ts1 ts2 t1 t2 cur b q) ∧
      (r ≠ .valid → BadAct tr1 tr2 cur b) := by
  unfold validPairs at h
  dsimp only at h
  split at h
  · cases h; exact ⟨fun _ h => .inl h, by simp⟩
  rename_i hne
  split at h
  · rename_i he
    cases h
    refine ⟨fun _ h => .inl h, fun _ => ?_⟩
    have hne : den (guardFed cur.zone tr1) ≠ ∅ := fun h => hne ((ZoneLib.isEmpty_iff _).2 h)
    obtain ⟨u, hu⟩ := Set.nonempty_iff_ne_empty.2 hne
    obtain ⟨hz, ht⟩ := mem_guardFed.1 hu
    refine .inl ⟨u, hz, ht, fun t ht hn => ?_⟩
    have : u ∈ den (guardFed cur.zone tr2) := mem_guardFed.2 ⟨hz, t, ht, hn⟩
    rw [(ZoneLib.isEmpty_iff _).1 he] at this; cases this
  split at h
  · rename_i hs
    cases h
    refine ⟨fun _ h => .inl h, fun _ => ?_⟩
    have hne : den (subtraction (guardFed cur.zone tr1) (guardFed cur.zone tr2)) ≠ ∅ := fun h => by
      rw [(ZoneLib.isEmpty_iff _).2 h] at hs; cases hs
    obtain ⟨u, hu⟩ := Set.nonempty_iff_ne_empty.2 hne
    rw [den_subtraction] at hu
    obtain ⟨hz, ht⟩ := mem_guardFed.1 hu.1
    exact .inl ⟨u, hz, ht, fun t ht hn => hu.2 (mem_guardFed.2 ⟨hz, t, ht, hn⟩)⟩
  · obtain ⟨⟨ok, c1⟩, h1, h⟩ := bind_ok h
    obtain ⟨a1, a2⟩ := tryPairs_any h1
    cases ok with
    | false => cases h; exact ⟨a1, fun _ => .inr (a2 rfl)⟩
    | true => cases h; exact ⟨a1, by simp⟩

/-- A new pair of the exploration. -/
def ZStep (ts1 ts2 : TS F) (ordO ordI : List String) (cur q : StatePair F) : Prop :=
  (∃ a ∈ ordO, ∃ o1 o2, ts1.nextOutputs cur.l1 a = .ok o1 ∧ outputs2 ts1 ts2 cur a = .ok o2 ∧
    ∃ t1 ∈ o1, ∃ t2 ∈ o2, NewPair ts1 ts2 t1 t2 cur true q) ∨
  (∃ a ∈ ordI, ∃ i1 i2, inputs1 ts1 ts2 cur a = .ok i1 ∧ ts2.nextInputs cur.l2 a = .ok i2 ∧
    ∃ t1 ∈ i2, ∃ t2 ∈ i1, NewPair ts1 ts2 t1 t2 cur false q)

/-- The comparison of some action failed at this pair. -/
def Bad (ts1 ts2 : TS F) (ordO ordI : List String) (cur : StatePair F) : Prop :=
  (∃ a ∈ ordO, ∃ o1 o2, ts1.nextOutputs cur.l1 a = .ok o1 ∧ outputs2 ts1 ts2 cur a = .ok o2 ∧
    BadAct o1 o2 cur true) ∨
  (∃ a ∈ ordI, ∃ i1 i2, inputs1 ts1 ts2 cur a = .ok i1 ∧ ts2.nextInputs cur.l2 a = .ok i2 ∧
    BadAct i2 i1 cur false)

omit [ZoneLib F] in
theorem check_some {r : PairResult} {a : String} {p : StatePair F} {f : RefFailure F}
    (h : r.check a p = some f) : r ≠ .valid := by rintro rfl; simp [PairResult.check] at h

theorem outputLoop_any {ts1 ts2 : TS F} {cur : StatePair F} :
    ∀ {as : List String} {c c' : RefCtx F} {r : Option (RefFailure F)},
    outputLoop ts1 ts2 cur as c = .ok (r, c') →
    (∀ q ∈ c'.waiting.queue, q ∈ c.waiting.queue ∨ ZStep ts1 ts2 as [] cur q) ∧
      (r ≠ none → Bad ts1 ts2 as [] cur) := by
  intro as
  induction as with
  | nil => intro c c' r h; cases h; exact ⟨fun _ h => .inl h, by simp⟩
  | cons a as ih =>
    intro c c' r h
    rw [outputLoop] at h
    obtain ⟨o1, h1, h⟩ := bind_ok h
    obtain ⟨o2, h2, h⟩ := bind_ok h
    obtain ⟨⟨r1, c1⟩, h3, h⟩ := bind_ok h
    obtain ⟨a1, a2⟩ := validPairs_any h3
    dsimp only at h
    split at h
    · rename_i hr
      cases h
      exact ⟨fun q hq => (a1 q hq).imp id fun h => .inl ⟨a, by simp, o1, o2, h1, h2, h⟩,
        fun _ => .inl ⟨a, by simp, o1, o2, h1, h2, a2 (check_some hr)⟩⟩
    · obtain ⟨b1, b2⟩ := ih h
      refine ⟨fun q hq => ?_, fun hr => ?_⟩
      · rcases b1 q hq with hq | (⟨a', ha', hq⟩ | ⟨a', ha', _⟩)
        · exact (a1 q hq).imp id fun h => .inl ⟨a, by simp, o1, o2, h1, h2, h⟩
        · exact .inr (.inl ⟨a', by simp [ha'], hq⟩)
        · cases ha'
      · rcases b2 hr with ⟨a', ha', hq⟩ | ⟨a', ha', _⟩
        · exact .inl ⟨a', by simp [ha'], hq⟩
        · cases ha'

theorem inputLoop_any {ts1 ts2 : TS F} {cur : StatePair F} :
    ∀ {as : List String} {c c' : RefCtx F} {r : Option (RefFailure F)},
    inputLoop ts1 ts2 cur as c = .ok (r, c') →
    (∀ q ∈ c'.waiting.queue, q ∈ c.waiting.queue ∨ ZStep ts1 ts2 [] as cur q) ∧
      (r ≠ none → Bad ts1 ts2 [] as cur) := by
  intro as
  induction as with
  | nil => intro c c' r h; cases h; exact ⟨fun _ h => .inl h, by simp⟩
  | cons a as ih =>
    intro c c' r h
    rw [inputLoop] at h
    obtain ⟨o1, h1, h⟩ := bind_ok h
    obtain ⟨o2, h2, h⟩ := bind_ok h
    obtain ⟨⟨r1, c1⟩, h3, h⟩ := bind_ok h
    obtain ⟨a1, a2⟩ := validPairs_any h3
    dsimp only at h
    split at h
    · rename_i hr
      cases h
      exact ⟨fun q hq => (a1 q hq).imp id fun h => .inr ⟨a, by simp, o1, o2, h1, h2, h⟩,
        fun _ => .inr ⟨a, by simp, o1, o2, h1, h2, a2 (check_some hr)⟩⟩
    · obtain ⟨b1, b2⟩ := ih h
      refine ⟨fun q hq => ?_, fun hr => ?_⟩
      · rcases b1 q hq with hq | (⟨a', ha', _⟩ | ⟨a', ha', hq⟩)
        · exact (a1 q hq).imp id fun h => .inr ⟨a, by simp, o1, o2, h1, h2, h⟩
        · cases ha'
        · exact .inr (.inr ⟨a', by simp [ha'], hq⟩)
      · rcases b2 hr with ⟨a', ha', _⟩ | ⟨a', ha', hq⟩
        · cases ha'
        · exact .inr ⟨a', by simp [ha'], hq⟩

omit [ZoneLib F] in
theorem pop_queue {w w' : Waiting F} {o : Option (StatePair F)} (h : w.pop = .ok (o, w')) :
    (o = none ∧ w'.queue = w.queue) ∨ ∃ p, o = some p ∧ w.queue = p :: w'.queue := by
  unfold Waiting.pop at h
  split at h
  · cases h; exact .inl ⟨rfl, rfl⟩
  · rename_i p q hq
    split at h
    · cases h; exact .inr ⟨p, rfl, hq⟩
    · cases h
    · cases h; exact .inr ⟨p, rfl, hq⟩

/-- A failed exploration has a pair, among those it generates, where a comparison failed. -/
theorem mainLoop_fail {ts1 ts2 : TS F} {ordO ordI : List String} {G : StatePair F → Prop}
    (hG : ∀ p q, G p → ZStep ts1 ts2 ordO ordI p q → G q) : ∀ (fuel : Nat) {c c' : RefCtx F}
    {f : RefFailure F}, (∀ p ∈ c.waiting.queue, G p) →
    mainLoop ts1 ts2 ordO ordI fuel c = .ok (some f, c') → ∃ p, G p ∧ Bad ts1 ts2 ordO ordI p := by
  intro fuel
  induction fuel with
  | zero => intro c c' f _ h; cases h
  | succ n ih =>
    intro c c' f hq h
    rw [mainLoop] at h
    split at h
    · cases h
    obtain ⟨⟨o, w⟩, h1, h⟩ := bind_ok h
    obtain ⟨cur, h2, h⟩ := bind_ok h
    rcases pop_queue h1 with ⟨rfl, _⟩ | ⟨p, rfl, hp⟩
    · cases h2
    have h2 : cur = p := by cases h2; rfl
    subst cur
    rw [hp] at hq
    have hGp := hq p (by simp)
    obtain ⟨⟨r1, c1⟩, h3, h⟩ := bind_ok h
    obtain ⟨a1, a2⟩ := outputLoop_any h3
    cases r1 with
    | some f1 =>
      refine ⟨p, hGp, (a2 (by simp)).imp id ?_⟩
      rintro ⟨a, ha, _⟩; cases ha
    | none =>
      obtain ⟨⟨r2, c2⟩, h4, h⟩ := bind_ok h
      obtain ⟨b1, b2⟩ := inputLoop_any h4
      cases r2 with
      | some f1 =>
        rcases b2 (by simp) with ⟨a, ha, _⟩ | hb
        · cases ha
        · exact ⟨p, hGp, .inr hb⟩
      | none =>
        refine ih (fun q hq' => ?_) h
        rcases b1 q hq' with hq' | (⟨a, ha, _⟩ | hq')
        · rcases a1 q hq' with hq' | (hq' | ⟨a, ha, _⟩)
          · exact hq q (by have : q ∈ w.queue := hq'; simp [this])
          · exact hG p q hGp (.inl hq')
          · cases ha
        · cases ha
        · exact hG p q hGp (.inr hq')

end Refine
end Reveaal
