import Verif.Lemmas.Product
import Verif.Props.C05

/-! # Runs and lists of symbolic states that cover them -/

namespace Reveaal
open ZoneLib
variable {F : Type} [ZoneLib F]

namespace Sys

theorem Good.eqv_eq {s : Sys F} (hs : s.Good) {a b : LocTree F} (ha : s.IsLoc a) (hb : s.IsLoc b)
    (h : a.eqv b = true) : a = b := by
  simp only [LocTree.eqv, Bool.and_eq_true, decide_eq_true_eq] at h
  exact hs.unique a b ha hb h.1

theorem Good.next_ok {s : Sys F} (hs : s.Good) {x : LocTree F} {a : String} {trans : List (Transition F)}
    (hx : s.IsLoc x) (ha : s.ts.hasAction a = true) (h : s.ts.next x a = .ok trans) :
    ∀ t ∈ trans, s.IsLoc t.target ∧ GoodTrans s.clocks t := by
  obtain ⟨ts, h1, h2⟩ := hs.next x a hx ha
  have h : s.next x a = _ := h
  rw [h1] at h; cases h
  exact h2

theorem Reach.inv {s : Sys F} {l : LocTree F} {v : Val} (h : s.ts.Reach l v) : v ∈ InvSet l := by
  cases h with
  | init _ h => exact h
  | act _ h =>
    obtain ⟨_, _, _, t, _, hc, rfl, rfl⟩ := h
    exact hc.2
  | delay _ hd => exact hd.2 _ hd.1 (le_refl _)

/-- The initial symbolic state consists of the valuations with equal clocks inside the invariant of the
initial location; there is none if there are no such valuations. -/
theorem initialState_spec {s : Sys F} {l : LocTree F} (h : s.ts.initialLoc = .ok (some l)) :
    (s.ts.initialState = .ok none ∧ den (init : F) ∩ InvSet l = ∅) ∨
    ∃ z, s.ts.initialState = .ok (some ⟨l, z⟩) ∧ den z = den (init : F) ∩ InvSet l := by
  have h : s.initialLoc = .ok (some l) := h
  change (s.initialState = _ ∧ _) ∨ ∃ z, s.initialState = _ ∧ _
  have hd : den (l.applyInvariants (init : F)) = den (init : F) ∩ InvSet l := by
    ext v; exact mem_applyInvariants
  have key : State.fromLocation l = none ∧ den (init : F) ∩ InvSet l = ∅ ∨
      ∃ z, State.fromLocation l = some ⟨l, z⟩ ∧ den z = den (init : F) ∩ InvSet l := by
    unfold State.fromLocation
    cases he : isEmpty (l.applyInvariants (init : F)) with
    | true => left; exact ⟨by simp [he], by rw [← hd]; exact (ZoneLib.isEmpty_iff _).1 he⟩
    | false => right; exact ⟨_, by simp [he], hd⟩
  cases s with
  | quotient t s' i o c n =>
    right
    refine ⟨init, ?_, ?_⟩
    · unfold initialState; rw [h]; rfl
    · have : l.inv = none := by
        simp only [initialLoc] at h
        obtain ⟨o1, _, h⟩ := bind_ok h
        cases o1 with
        | none => cases h
        | some a =>
          obtain ⟨o2, _, h⟩ := bind_ok h
          cases o2 with
          | none => cases h
          | some b => cases h; rfl
      ext v; simp [InvSet, this]
  | comp c => unfold initialState; rw [h]; simpa using key
  | composition => unfold initialState; rw [h]; simpa using key
  | conjunction => unfold initialState; rw [h]; simpa using key

theorem delay_zero_init {d : ℝ} (hd : 0 ≤ d) : delay (dim F) zeroVal d ∈ den (init : F) := by
  rw [den_init]
  refine ⟨delay_valid zeroVal_valid hd, fun i j h1 h2 h3 h4 => ?_⟩
  simp [delay, zeroVal, h1, h2, h3, h4]

theorem zero_init : zeroVal ∈ den (init : F) := by
  have := delay_zero_init (F := F) (le_refl 0)
  rwa [delay_zero] at this

/-- The list of passed states covers a concrete state, and all its delays. -/
def CoveredVal (P : List (State F)) (l : LocTree F) (v : Val) : Prop :=
  ∃ p ∈ P, p.loc = l ∧ v ∈ den p.zone ∧ ∀ d, TS.CanDelay l v d → delay (dim F) v d ∈ den p.zone

/-- Everything a run from a covered state gets to is covered by a list that is closed under successors. -/
theorem run_covered {s : Sys F} (hs : s.Good) {P : List (State F)} (hP : ∀ q ∈ P, s.IsLoc q.loc)
    (hproc : ∀ p ∈ P, ∀ a trans, s.ts.hasAction a = true → s.ts.next p.loc a = .ok trans → ∀ t ∈ trans,
      (t.useTransition p).1 = true → ∃ q ∈ P, q.loc = t.target ∧ SuccSet t (den p.zone) ⊆ den q.zone)
    {l₀ l : LocTree F} {v₀ v : Val} (h0 : CoveredVal P l₀ v₀) (h : s.ts.RunFrom l₀ v₀ l v) :
    CoveredVal P l v := by
  induction h with
  | refl => exact h0
  | @act l v a l' v' hr hst ih =>
    obtain ⟨p, hp, rfl, hv, -⟩ := ih
    obtain ⟨ha, trans, htr, t, ht, hc, rfl, rfl⟩ := hst
    obtain ⟨hl, hg⟩ := hs.next_ok (hP p hp) ha htr t ht
    have hsucc : ∀ d, TS.CanDelay t.target (runUpdates t.updates v) d →
        delay (dim F) (runUpdates t.updates v) d ∈ SuccSet t (den p.zone) :=
      fun d hd => ⟨v, hv, hc.1, d, hd.1, rfl, hd.2 d hd.1 (le_refl _)⟩
    have h0 : TS.CanDelay t.target (runUpdates t.updates v) 0 := by
      refine ⟨le_refl _, fun d h1 h2 => ?_⟩
      rw [le_antisymm h2 h1, delay_zero]; exact hc.2
    have hu := (C05_use_transition t p hg.upd).1.2 ⟨_, hsucc 0 h0⟩
    obtain ⟨q, hq, hqe, hqz⟩ := hproc p hp a trans ha htr t ht hu
    have hin : ∀ d, TS.CanDelay t.target (runUpdates t.updates v) d →
        delay (dim F) (runUpdates t.updates v) d ∈ den q.zone := fun d hd => hqz (hsucc d hd)
    refine ⟨q, hq, hqe, ?_, hin⟩
    have := hin 0 h0
    rwa [delay_zero] at this
  | @delay l v d hr hd ih =>
    obtain ⟨p, hp, rfl, hv, hall⟩ := ih
    refine ⟨p, hp, rfl, hall d hd, fun d' hd' => ?_⟩
    rw [delay_add]
    apply hall
    refine ⟨add_nonneg hd.1 hd'.1, fun e h1 h2 => ?_⟩
    by_cases he : e ≤ d
    · exact hd.2 e h1 he
    · push Not at he
      have := hd'.2 (e - d) (by linarith) (by linarith)
      rwa [delay_add, add_sub_cancel] at this

theorem reach_run {s : Sys F} {l : LocTree F} {v : Val} (h : s.ts.Reach l v) :
    ∃ l₀, s.ts.initialLoc = .ok (some l₀) ∧ zeroVal ∈ InvSet l₀ ∧ s.ts.RunFrom l₀ zeroVal l v := by
  induction h with
  | init h hv => exact ⟨_, h, hv, .refl⟩
  | act _ hs ih => obtain ⟨l₀, h1, h2, h3⟩ := ih; exact ⟨l₀, h1, h2, .act h3 hs⟩
  | delay _ hd ih => obtain ⟨l₀, h1, h2, h3⟩ := ih; exact ⟨l₀, h1, h2, .delay h3 hd⟩

theorem Good.run {s : Sys F} (hs : s.Good) {l₀ l : LocTree F} {v₀ v : Val} (h0 : s.IsLoc l₀)
    (hv0 : Valid (dim F) v₀) (h : s.ts.RunFrom l₀ v₀ l v) : s.IsLoc l ∧ Valid (dim F) v := by
  induction h with
  | refl => exact ⟨h0, hv0⟩
  | act _ hst ih =>
    obtain ⟨ha, trans, htr, t, ht, hc, rfl, rfl⟩ := hst
    have := hs.next_ok ih.1 ha htr t ht
    exact ⟨this.1, this.2.run_valid ih.2⟩
  | delay _ hd ih => exact ⟨ih.1, delay_valid ih.2 hd.1⟩

theorem run_inv {s : Sys F} {l₀ l : LocTree F} {v₀ v : Val} (h0 : v₀ ∈ InvSet l₀)
    (h : s.ts.RunFrom l₀ v₀ l v) : v ∈ InvSet l := by
  cases h with
  | refl => exact h0
  | act _ h =>
    obtain ⟨_, _, _, t, _, hc, rfl, rfl⟩ := h
    exact hc.2
  | delay _ hd => exact hd.2 _ hd.1 (le_refl _)

end Sys
end Reveaal
