import Verif.Lemmas.RefineFail
import Verif.Model.Failures

/-! # The failure of a refinement check says where it was found -/

namespace Reveaal
open ZoneLib
variable {F : Type} [ZoneLib F]

namespace Refine

/-- The failure says what went wrong when the transitions of one action were compared. -/
def Mismatch (f : RefFailure F) (a : String) (tr1 tr2 : List (Transition F)) (p : StatePair F) (b : Bool) : Prop :=
  (f = .cannotMatch a p ∧ ∃ u ∈ den p.zone, (∃ t ∈ tr1, u ∈ den t.allowed) ∧ ∀ t ∈ tr2, u ∉ den t.allowed) ∨
    (f = .cutsDelays a p ∧ ∃ t1 ∈ tr1, ∃ t2 ∈ tr2, Cut t1 t2 p b)

theorem validPairs_result {ts1 ts2 : TS F} {tr1 tr2 : List (Transition F)} {cur : StatePair F} {b : Bool}
    {c c' : RefCtx F} {r : PairResult} (h : validPairs ts1 ts2 tr1 tr2 cur b c = .ok (r, c')) {a : String}
    {f : RefFailure F} (hr : r.check a cur = some f) : Mismatch f a tr1 tr2 cur b := by
  unfold validPairs at h
  dsimp only at h
  split at h
  · cases h; cases hr
  rename_i hne
  split at h
  · rename_i he
    cases h; cases hr
    have hne : den (guardFed cur.zone tr1) ≠ ∅ := fun h => hne ((ZoneLib.isEmpty_iff _).2 h)
    obtain ⟨u, hu⟩ := Set.nonempty_iff_ne_empty.2 hne
    obtain ⟨hz, ht⟩ := mem_guardFed.1 hu
    refine .inl ⟨rfl, u, hz, ht, fun t ht hn => ?_⟩
    have : u ∈ den (guardFed cur.zone tr2) := mem_guardFed.2 ⟨hz, t, ht, hn⟩
    rw [(ZoneLib.isEmpty_iff _).1 he] at this; cases this
  split at h
  · rename_i hs
    cases h; cases hr
    have hne : den (subtraction (guardFed cur.zone tr1) (guardFed cur.zone tr2)) ≠ ∅ := fun h => by
      rw [(ZoneLib.isEmpty_iff _).2 h] at hs; cases hs
    obtain ⟨u, hu⟩ := Set.nonempty_iff_ne_empty.2 hne
    rw [den_subtraction] at hu
    obtain ⟨hz, ht⟩ := mem_guardFed.1 hu.1
    exact .inl ⟨rfl, u, hz, ht, fun t ht hn => hu.2 (mem_guardFed.2 ⟨hz, t, ht, hn⟩)⟩
  · obtain ⟨⟨ok, c1⟩, h1, h⟩ := bind_ok h
    obtain ⟨a1, a2⟩ := tryPairs_any h1
    cases ok with
    | false => cases h; cases hr; exact .inr ⟨rfl, a2 rfl⟩
    | true => cases h; cases hr

/-- The failure was found at the pair. -/
def FailsAt (ts1 ts2 : TS F) (ordO ordI : List String) (p : StatePair F) (f : RefFailure F) : Prop :=
  (∃ a ∈ ordO, ∃ o1 o2, ts1.nextOutputs p.l1 a = .ok o1 ∧ outputs2 ts1 ts2 p a = .ok o2 ∧
    Mismatch f a o1 o2 p true) ∨
  (∃ a ∈ ordI, ∃ i1 i2, inputs1 ts1 ts2 p a = .ok i1 ∧ ts2.nextInputs p.l2 a = .ok i2 ∧
    Mismatch f a i2 i1 p false)

theorem outputLoop_fails {ts1 ts2 : TS F} {cur : StatePair F} {f : RefFailure F} :
    ∀ {as : List String} {c c' : RefCtx F}, outputLoop ts1 ts2 cur as c = .ok (some f, c') →
    FailsAt ts1 ts2 as [] cur f := by
  intro as
  induction as with
  | nil => intro c c' h; cases h
  | cons a as ih =>
    intro c c' h
    rw [outputLoop] at h
    obtain ⟨o1, h1, h⟩ := bind_ok h
    obtain ⟨o2, h2, h⟩ := bind_ok h
    obtain ⟨⟨r1, c1⟩, h3, h⟩ := bind_ok h
    dsimp only at h
    split at h
    · rename_i hr
      cases h
      exact .inl ⟨a, by simp, o1, o2, h1, h2, validPairs_result h3 hr⟩
    · rcases ih h with ⟨a', ha', hq⟩ | ⟨a', ha', _⟩
      · exact .inl ⟨a', by simp [ha'], hq⟩
      · cases ha'

theorem inputLoop_fails {ts1 ts2 : TS F} {cur : StatePair F} {f : RefFailure F} :
    ∀ {as : List String} {c c' : RefCtx F}, inputLoop ts1 ts2 cur as c = .ok (some f, c') →
    FailsAt ts1 ts2 [] as cur f := by
  intro as
  induction as with
  | nil => intro c c' h; cases h
  | cons a as ih =>
    intro c c' h
    rw [inputLoop] at h
    obtain ⟨o1, h1, h⟩ := bind_ok h
    obtain ⟨o2, h2, h⟩ := bind_ok h
    obtain ⟨⟨r1, c1⟩, h3, h⟩ := bind_ok h
    dsimp only at h
    split at h
    · rename_i hr
      cases h
      exact .inr ⟨a, by simp, o1, o2, h1, h2, validPairs_result h3 hr⟩
    · rcases ih h with ⟨a', ha', _⟩ | ⟨a', ha', hq⟩
      · cases ha'
      · exact .inr ⟨a', by simp [ha'], hq⟩

/-- A failed exploration reports a pair it generated, at which a comparison failed. -/
theorem mainLoop_fails {ts1 ts2 : TS F} {ordO ordI : List String} {G : StatePair F → Prop}
    (hG : ∀ p q, G p → ZStep ts1 ts2 ordO ordI p q → G q) : ∀ (fuel : Nat) {c c' : RefCtx F}
    {f : RefFailure F}, (∀ p ∈ c.waiting.queue, G p) →
    mainLoop ts1 ts2 ordO ordI fuel c = .ok (some f, c') → ∃ p, G p ∧ FailsAt ts1 ts2 ordO ordI p f := by
  intro fuel
  induction fuel with
  | zero => intro c c' f _ h; cases h
  | succ n ih =>
    intro c c' f hq h
    rw [mainLoop] at h
    split at h
    · cases h
    obtain ⟨⟨o, w⟩, h1, h⟩ := bind_ok h
    obtain ⟨cur, h2, h⟩ := bind_ok h
    rcases pop_queue h1 with ⟨rfl, _⟩ | ⟨p, rfl, hp⟩
    · cases h2
    have h2 : cur = p := by cases h2; rfl
    subst cur
    rw [hp] at hq
    have hGp := hq p (by simp)
    obtain ⟨⟨r1, c1⟩, h3, h⟩ := bind_ok h
    cases r1 with
    | some f1 =>
      have hf : f1 = f := by cases h; rfl
      subst hf
      refine ⟨p, hGp, (outputLoop_fails h3).imp id ?_⟩
      rintro ⟨a, ha, _⟩; cases ha
    | none =>
      obtain ⟨⟨r2, c2⟩, h4, h⟩ := bind_ok h
      cases r2 with
      | some f1 =>
        have hf : f1 = f := by cases h; rfl
        subst hf
        rcases inputLoop_fails h4 with ⟨a, ha, _⟩ | hb
        · cases ha
        · exact ⟨p, hGp, .inr hb⟩
      | none =>
        have a1 := (outputLoop_any h3).1
        have b1 := (inputLoop_any h4).1
        refine ih (fun q hq' => ?_) h
        rcases b1 q hq' with hq' | (⟨a, ha, _⟩ | hq')
        · rcases a1 q hq' with hq' | (hq' | ⟨a, ha, _⟩)
          · exact hq q (by have : q ∈ w.queue := hq'; simp [this])
          · exact hG p q hGp (.inl hq')
          · cases ha
        · cases ha
        · exact hG p q hGp (.inr hq')

end Refine
end Reveaal
