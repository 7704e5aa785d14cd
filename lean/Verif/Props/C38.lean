import Verif.Spec.Stack
import Verif.Lemmas.SysGood
import Verif.Examples
import Mathlib.Data.List.Induction

/-! # C38: exploration bookkeeping never loses a pending state pair -/

namespace Reveaal
open ZoneLib
variable {F : Type} [ZoneLib F]

namespace Waiting

/-- One operation on the waiting list of the code. -/
def step (w : Waiting F) : WaitOp F → Res (WaitOut F × Waiting F)
  | .put p => .ok (.unit, w.put p)
  | .pop => do
    let (o, w) ← w.pop
    .ok (.popped o, w)
  | .has p => .ok (.answer (w.has p), w)
  | .isEmpty => .ok (.answer w.isEmpty, w)

/-- A history of operations on the waiting list of the code. -/
def run : List (WaitOp F) → Waiting F → Res (List (WaitOut F))
  | [], _ => .ok []
  | op :: ops, w => do
    let (o, w) ← w.step op
    let os ← run ops w
    .ok (o :: os)

/-- The map holds, for every key, the zones of the queue with that key in the same order. -/
def Inv (w : Waiting F) : Prop :=
  ∀ k, (w.map.lookup k).getD [] = (w.queue.filter fun p => p.key = k).map (·.zone)

omit [ZoneLib F] in
theorem inv_new : (Waiting.new : Waiting F).Inv := by intro k; rfl

omit [ZoneLib F] in
theorem put_queue (w : Waiting F) (p : StatePair F) : (w.put p).queue = p :: w.queue := by
  unfold put; split <;> rfl

omit [ZoneLib F] in
theorem inv_put {w : Waiting F} (h : w.Inv) (p : StatePair F) : (w.put p).Inv := by
  intro k
  have hk := h k
  unfold put
  split
  · rename_i v hv
    dsimp only
    rw [lookup_hmInsert]
    by_cases e : k = p.key
    · subst e; rw [hv] at hk; simp at hk; simp [hk]
    · have : ¬ p.key = k := fun h => e h.symm
      simp [e, this, hk]
  · rename_i hv
    dsimp only
    rw [lookup_hmInsert]
    by_cases e : k = p.key
    · subst e; rw [hv] at hk; simp at hk; simpa using hk
    · have : ¬ p.key = k := fun h => e h.symm
      simp [e, this, hk]

omit [ZoneLib F] in
theorem pop_spec {w : Waiting F} (h : w.Inv) :
    (w.queue = [] ∧ w.pop = .ok (none, w)) ∨
    ∃ p q m, w.queue = p :: q ∧ w.pop = .ok (some p, ⟨q, m⟩) ∧ (⟨q, m⟩ : Waiting F).Inv := by
  obtain ⟨queue, map⟩ := w
  cases queue with
  | nil => exact .inl ⟨rfl, rfl⟩
  | cons p q =>
    right
    have hk := h p.key
    dsimp only at hk
    rw [List.filter_cons_of_pos (by simp), List.map_cons] at hk
    refine ⟨p, q, hmInsert p.key ((q.filter fun x => x.key = p.key).map (·.zone)) map, rfl, ?_, ?_⟩
    · unfold pop
      dsimp only
      cases hl : map.lookup p.key with
      | none => rw [hl] at hk; simp at hk
      | some v =>
        rw [hl] at hk
        simp only [Option.getD_some] at hk
        subst hk; rfl
    · intro k
      dsimp only
      rw [lookup_hmInsert]
      by_cases e : k = p.key
      · subst e; simp
      · have h' := h k
        have : ¬ p.key = k := fun h => e h.symm
        dsimp only at h'
        rw [List.filter_cons_of_neg (by simpa using this)] at h'
        simpa [e] using h'

theorem has_iff {w : Waiting F} (h : w.Inv) (p : StatePair F) :
    w.has p = true ↔ ∃ q ∈ w.queue, p.CoveredBy q := by
  have hk := h p.key
  have key : w.has p = (((w.map.lookup p.key).getD []).any fun f => subsetEq p.zone f) := by
    unfold has; cases w.map.lookup p.key <;> rfl
  rw [key, hk, List.any_eq_true]
  simp only [List.mem_map, List.mem_filter, decide_eq_true_eq, StatePair.CoveredBy]
  constructor
  · rintro ⟨z, ⟨q, ⟨hq, he⟩, rfl⟩, hz⟩
    simp only [StatePair.key, Prod.mk.injEq] at he
    exact ⟨q, hq, he.1.symm, he.2.symm, (subsetEq_iff _ _).1 hz⟩
  · rintro ⟨q, hq, h1, h2, hz⟩
    exact ⟨_, ⟨q, ⟨hq, by simp [StatePair.key, h1, h2]⟩, rfl⟩, (subsetEq_iff _ _).2 hz⟩

theorem step_spec {w : Waiting F} (h : w.Inv) (op : WaitOp F) :
    ∃ o w', w.step op = .ok (o, w') ∧ w'.Inv ∧ StackStep w.queue op o w'.queue := by
  cases op with
  | put p => exact ⟨_, _, rfl, inv_put h p, by rw [put_queue]; exact .put p _⟩
  | pop =>
    rcases pop_spec h with ⟨h1, h2⟩ | ⟨p, q, m, h1, h2, h3⟩
    · exact ⟨.popped none, w, by simp [step, h2], h, by rw [h1]; exact .popNone⟩
    · exact ⟨.popped (some p), _, by simp [step, h2], h3, by rw [h1]; exact .pop p q⟩
  | has p => exact ⟨_, _, rfl, h, .has p _ _ (has_iff h p)⟩
  | isEmpty => exact ⟨_, _, rfl, h, .isEmpty _ _ (by simp [isEmpty])⟩

end Waiting

/-- Whatever operations are performed on a new waiting list, none of them panics and all answers are those
of a plain stack: pairs are popped exactly once, the latest first, and membership is true exactly when a
pending pair covers the asked one. -/
theorem C38_waiting_is_stack (ops : List (WaitOp F)) :
    ∃ outs, Waiting.run ops (Waiting.new : Waiting F) = .ok outs ∧ StackRun [] ops outs := by
  suffices h : ∀ (ops : List (WaitOp F)) (w : Waiting F), w.Inv →
      ∃ outs, Waiting.run ops w = .ok outs ∧ StackRun w.queue ops outs from
    h ops Waiting.new Waiting.inv_new
  intro ops
  induction ops with
  | nil => intro w _; exact ⟨[], rfl, .nil _⟩
  | cons op ops ih =>
    intro w hw
    obtain ⟨o, w', h1, h2, h3⟩ := Waiting.step_spec hw op
    obtain ⟨outs, h4, h5⟩ := ih w' h2
    exact ⟨o :: outs, by simp [Waiting.run, h1, h4], .cons h3 h5⟩

/-- The passed list: what was put covers exactly the pairs whose valuations are, all together, valuations
of earlier pairs with the same locations. -/
theorem C38_passed_has (ps : List (StatePair F)) (p : StatePair F) :
    PassedFed.has (ps.foldl PassedFed.put []) p = true ↔
      (∃ q ∈ ps, p.l1.id = q.l1.id ∧ p.l2.id = q.l2.id) ∧
      ∀ v ∈ den p.zone, ∃ q ∈ ps, p.l1.id = q.l1.id ∧ p.l2.id = q.l2.id ∧ v ∈ den q.zone := by
  have key : ∀ (ps : List (StatePair F)) (k : LocId × LocId),
      match (ps.foldl PassedFed.put ([] : PassedFed F)).lookup k with
      | none => ∀ q ∈ ps, q.key ≠ k
      | some f => (∃ q ∈ ps, q.key = k) ∧ ∀ v, v ∈ den f ↔ ∃ q ∈ ps, q.key = k ∧ v ∈ den q.zone := by
    intro ps
    induction ps using List.reverseRecOn with
    | nil => intro k; simp
    | append_singleton ps q ih =>
      intro k
      rw [List.foldl_append]
      simp only [List.foldl_cons, List.foldl_nil]
      have hq := ih q.key
      have hk := ih k
      generalize ps.foldl PassedFed.put ([] : PassedFed F) = m at hq hk
      unfold PassedFed.put
      cases hm : List.lookup q.key m with
      | none =>
        simp only [lookup_hmInsert]
        rw [hm] at hq
        by_cases e : k = q.key
        · subst e
          simp only [if_true]
          refine ⟨⟨q, by simp, rfl⟩, fun v => ⟨fun hv => ⟨q, by simp, rfl, hv⟩, ?_⟩⟩
          rintro ⟨x, hx, hxk, hv⟩
          rcases List.mem_append.1 hx with hx | hx
          · exact absurd hxk (hq x hx)
          · rw [List.mem_singleton] at hx; subst hx; exact hv
        · have e' : q.key ≠ k := fun h => e h.symm
          simp only [e, if_false]
          split
          · rename_i h; rw [h] at hk
            intro x hx
            rcases List.mem_append.1 hx with hx | hx
            · exact hk x hx
            · rw [List.mem_singleton] at hx; subst hx; exact e'
          · rename_i f h; rw [h] at hk
            obtain ⟨⟨x, hx, hxk⟩, hv⟩ := hk
            refine ⟨⟨x, by simp [hx], hxk⟩, fun v => ?_⟩
            rw [hv]
            simp only [List.mem_append, List.mem_singleton]
            constructor
            · rintro ⟨x, hx, h⟩; exact ⟨x, .inl hx, h⟩
            · rintro ⟨x, hx | rfl, h⟩
              · exact ⟨x, hx, h⟩
              · exact absurd h.1 e'
      | some g =>
        simp only [lookup_hmInsert]
        rw [hm] at hq
        by_cases e : k = q.key
        · subst e
          simp only [if_true]
          refine ⟨⟨q, by simp, rfl⟩, fun v => ?_⟩
          rw [den_append, Set.mem_union, hq.2 v]
          simp only [List.mem_append, List.mem_singleton]
          constructor
          · rintro (h | ⟨x, hx, h⟩)
            · exact ⟨q, .inr rfl, rfl, h⟩
            · exact ⟨x, .inl hx, h⟩
          · rintro ⟨x, hx | rfl, h⟩
            · exact .inr ⟨x, hx, h⟩
            · exact .inl h.2
        · have e' : q.key ≠ k := fun h => e h.symm
          simp only [e, if_false]
          split
          · rename_i h; rw [h] at hk
            intro x hx
            rcases List.mem_append.1 hx with hx | hx
            · exact hk x hx
            · rw [List.mem_singleton] at hx; subst hx; exact e'
          · rename_i f h; rw [h] at hk
            obtain ⟨⟨x, hx, hxk⟩, hv⟩ := hk
            refine ⟨⟨x, by simp [hx], hxk⟩, fun v => ?_⟩
            rw [hv]
            simp only [List.mem_append, List.mem_singleton]
            constructor
            · rintro ⟨x, hx, h⟩; exact ⟨x, .inl hx, h⟩
            · rintro ⟨x, hx | rfl, h⟩
              · exact ⟨x, hx, h⟩
              · exact absurd h.1 e'
  have hkey : ∀ q : StatePair F, q.key = p.key ↔ p.l1.id = q.l1.id ∧ p.l2.id = q.l2.id := by
    intro q; simp only [StatePair.key, Prod.mk.injEq]; constructor <;> rintro ⟨h1, h2⟩ <;> exact ⟨h1.symm, h2.symm⟩
  have := key ps p.key
  unfold PassedFed.has
  split at this
  · rename_i h
    rw [h]
    simp only [Bool.false_eq_true, false_iff]
    rintro ⟨⟨q, hq, h1⟩, _⟩
    exact this q hq ((hkey q).2 h1)
  · rename_i f h
    rw [h]
    simp only [subsetEq_iff]
    simp only [hkey] at this
    constructor
    · intro hs
      refine ⟨this.1, fun v hv => ?_⟩
      obtain ⟨q, hq, ⟨h1, h2⟩, h3⟩ := (this.2 v).1 (hs hv)
      exact ⟨q, hq, h1, h2, h3⟩
    · rintro ⟨_, hs⟩ v hv
      obtain ⟨q, hq, h1, h2, h3⟩ := hs v hv
      exact (this.2 v).2 ⟨q, hq, ⟨h1, h2⟩, h3⟩

/-- The other passed list: membership is true exactly when one earlier pair covers the asked one. -/
theorem C38_passedVec_has (ps : List (StatePair F)) (p : StatePair F) :
    PassedVec.has (ps.foldl PassedVec.put []) p = true ↔ ∃ q ∈ ps, p.CoveredBy q := by
  have key : ∀ (ps : List (StatePair F)) (k : LocId × LocId),
      ((ps.foldl PassedVec.put ([] : PassedVec F)).lookup k).getD [] =
        (ps.filter fun q => q.key = k).map (·.zone) := by
    intro ps
    induction ps using List.reverseRecOn with
    | nil => intro k; rfl
    | append_singleton ps q ih =>
      intro k
      rw [List.foldl_append]
      simp only [List.foldl_cons, List.foldl_nil, List.filter_append, List.map_append]
      have hq := ih q.key
      have hk := ih k
      generalize ps.foldl PassedVec.put ([] : PassedVec F) = m at hq hk
      unfold PassedVec.put
      cases hm : List.lookup q.key m with
      | none =>
        simp only [lookup_hmInsert]
        rw [hm] at hq
        by_cases e : k = q.key
        · subst e; rw [← hq]; simp
        · have e' : q.key ≠ k := fun h => e h.symm
          simp [e, e', hk]
      | some g =>
        simp only [lookup_hmInsert]
        rw [hm] at hq
        by_cases e : k = q.key
        · subst e; rw [← hq]; simp
        · have e' : q.key ≠ k := fun h => e h.symm
          simp [e, e', hk]
  have h : PassedVec.has (ps.foldl PassedVec.put []) p =
      ((((ps.foldl PassedVec.put ([] : PassedVec F)).lookup p.key).getD []).any
        fun f => subsetEq p.zone f) := by
    unfold PassedVec.has; cases List.lookup p.key (ps.foldl PassedVec.put ([] : PassedVec F)) <;> rfl
  rw [h, key, List.any_eq_true]
  simp only [List.mem_map, List.mem_filter, decide_eq_true_eq, StatePair.CoveredBy]
  constructor
  · rintro ⟨z, ⟨q, ⟨hq, he⟩, rfl⟩, hz⟩
    simp only [StatePair.key, Prod.mk.injEq] at he
    exact ⟨q, hq, he.1.symm, he.2.symm, (subsetEq_iff _ _).1 hz⟩
  · rintro ⟨q, hq, h1, h2, hz⟩
    exact ⟨_, ⟨q, ⟨hq, by simp [StatePair.key, h1, h2]⟩, rfl⟩, (subsetEq_iff _ _).2 hz⟩

/-- Non-vacuity: a concrete history with two pairs of the same locations. -/
example : let p : StatePair Fed4 := ⟨.leaf (.simple "A") none .normal, .leaf (.simple "B") none .normal, init⟩
    let q : StatePair Fed4 := ⟨p.l1, p.l2, univ⟩
    (match Waiting.run [.put p, .put q, .has p, .pop, .has q, .pop, .isEmpty] (Waiting.new : Waiting Fed4) with
      | .ok [.unit, .unit, .answer true, .popped (some a), .answer false, .popped (some b), .answer true] =>
        subsetEq a.zone univ && !(subsetEq a.zone init) && subsetEq b.zone init
      | _ => false) = true := by decide +kernel

end Reveaal
