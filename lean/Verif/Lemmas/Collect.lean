import Verif.Spec.Save
import Verif.Lemmas.ClockGraph
import Mathlib.Data.List.Perm.Subperm

/-!
# The depth-first search for reachable locations
-/

namespace Reveaal
open ZoneLib

/-- A loop that only moves along a preorder and establishes something for every element. -/
theorem foldlM_trace {α β : Type} {f : β → α → Res β} {P : β → Prop} {R : β → β → Prop} {Q : α → β → Prop}
    (hrefl : ∀ b, R b b) (htrans : ∀ a b c, R a b → R b c → R a c) (hP : ∀ b b', P b → R b b' → P b')
    (hmono : ∀ a b b', P b → Q a b → R b b' → Q a b') :
    ∀ (l : List α), (∀ a ∈ l, ∀ b b', P b → f b a = .ok b' → R b b' ∧ Q a b') → ∀ b b', P b → l.foldlM f b = .ok b' →
      R b b' ∧ ∀ a ∈ l, Q a b'
  | [], _, b, b', _, h => by
    rw [List.foldlM_nil] at h
    cases h
    exact ⟨hrefl _, by simp⟩
  | a :: l, hs, b, b', hb, h => by
    rw [List.foldlM_cons] at h
    obtain ⟨c, h1, h2⟩ := bind_ok h
    obtain ⟨r1, q1⟩ := hs a (.head _) b c hb h1
    obtain ⟨r2, q2⟩ := foldlM_trace hrefl htrans hP hmono l (fun a ha => hs a (.tail _ ha)) c b' (hP _ _ hb r1) h2
    refine ⟨htrans _ _ _ r1 r2, fun a' ha' => ?_⟩
    rcases List.mem_cons.1 ha' with rfl | ha'
    · exact hmono _ _ _ (hP _ _ hb r1) q1 r2
    · exact q2 a' ha'

theorem foldlM_total {α β : Type} {f : β → α → Res β} {P : β → Prop} :
    ∀ (l : List α), (∀ a ∈ l, ∀ b, P b → ∃ b', f b a = .ok b' ∧ P b') → ∀ b, P b → ∃ b', l.foldlM f b = .ok b' ∧ P b'
  | [], _, b, hb => ⟨b, rfl, hb⟩
  | a :: l, hs, b, hb => by
    obtain ⟨c, h1, hc⟩ := hs a (.head _) b hb
    obtain ⟨b', h2, hb'⟩ := foldlM_total l (fun a ha => hs a (.tail _ ha)) c hc
    refine ⟨b', ?_, hb'⟩
    rw [List.foldlM_cons, h1]
    exact h2

variable {F : Type} [ZoneLib F]

omit [ZoneLib F] in
theorem ActionOrder.For.mem {ord : ActionOrder F} {s : Sys F} (h : ord.For s) {l : LocTree F} {a : String} :
    a ∈ (ord l).1 ++ (ord l).2 ↔ s.hasAction a = true := by
  rw [List.mem_append, (h l).1.mem_iff, (h l).2.mem_iff]
  simp [Sys.hasAction]

theorem Sys.Linked.isLoc {s : Sys F} {l : LocTree F} (h : s.Linked l) (hs : s.Accepted) : s.IsLoc l := by
  induction h with
  | init h =>
    obtain ⟨o, h3, h4⟩ := hs.good.initial
    have h3' : s.ts.initialLoc = .ok o := h3
    rw [h] at h3'; cases h3'
    exact h4 _ rfl
  | step _ ha hn ht ih =>
    obtain ⟨trans, h1, h2⟩ := hs.good.next _ _ ih ha
    have h1' : s.ts.next _ _ = .ok trans := h1
    rw [hn] at h1'; cases h1'
    exact (h2 _ ht).1

/-- All successors are in the list. -/
def Sys.ClosedAt (s : Sys F) (x : LocTree F) (locs : List (LocTree F)) : Prop :=
  ∀ a trans, s.hasAction a = true → s.next x a = .ok trans → ∀ t ∈ trans, t.target ∈ locs

/-- What a step of the search does to the list. -/
structure CollectStep (s : Sys F) (a b : List (LocTree F)) : Prop where
  pre : a <+: b
  nodup : a.Nodup → b.Nodup
  closed : ∀ x ∈ b, x ∉ a → s.ClosedAt x b

theorem CollectStep.refl (s : Sys F) (a : List (LocTree F)) : CollectStep s a a :=
  ⟨List.prefix_refl _, id, fun _ h h' => absurd h h'⟩

theorem CollectStep.trans {s : Sys F} {a b c : List (LocTree F)} (h1 : CollectStep s a b) (h2 : CollectStep s b c) :
    CollectStep s a c := by
  refine ⟨h1.pre.trans h2.pre, fun h => h2.nodup (h1.nodup h), fun x hx hn => ?_⟩
  by_cases hb : x ∈ b
  · exact fun a' tr ha hn' t ht => h2.pre.subset (h1.closed x hb hn a' tr ha hn' t ht)
  · exact h2.closed x hx hb

theorem eqv_iff {s : Sys F} (hs : s.Good) {a b : LocTree F} (ha : s.IsLoc a) (hb : s.IsLoc b) :
    a.eqv b = true ↔ a = b := by
  unfold LocTree.eqv
  rw [Bool.and_eq_true, decide_eq_true_eq, decide_eq_true_eq]
  exact ⟨fun h => hs.unique a b ha hb h.1, fun h => by rw [h]; exact ⟨rfl, rfl⟩⟩

/-- The search from a location that is already in the list: afterwards that location and all added ones are closed
under transitions, and only linked locations were added. -/
theorem collectReachable_spec {s : Sys F} (hs : s.Accepted) {ord : ActionOrder F} (ho : ord.For s) :
    ∀ (fuel : Nat) (l : LocTree F) (locs locs' : List (LocTree F)), (∀ x ∈ locs, s.Linked x) → s.Linked l →
      collectReachable s.ts ord fuel l locs = .ok locs' →
      CollectStep s locs locs' ∧ s.ClosedAt l locs' ∧ ∀ x ∈ locs', s.Linked x
  | 0, _, _, _, _, _, h => by cases h
  | fuel + 1, l, locs, locs', hlocs, hl, h => by
    rw [collectReachable] at h
    let R := fun a b : List (LocTree F) => CollectStep s a b ∧ ((∀ x ∈ a, s.Linked x) → ∀ x ∈ b, s.Linked x)
    have hR1 : ∀ b, R b b := fun b => ⟨.refl s b, id⟩
    have hR2 : ∀ a b c, R a b → R b c → R a c := fun a b c h1 h2 => ⟨h1.1.trans h2.1, fun h => h2.2 (h1.2 h)⟩
    have := foldlM_trace (P := fun b => ∀ x ∈ b, s.Linked x) (R := R)
      (Q := fun a b => ∀ trans, s.next l a = .ok trans → ∀ t ∈ trans, t.target ∈ b)
      hR1 hR2 (fun b b' hb hr => hr.2 hb) (fun a b b' _ hq hr trans hn t ht => hr.1.pre.subset (hq trans hn t ht))
      _ ?_ _ _ hlocs h
    · obtain ⟨⟨r1, r2⟩, q⟩ := this
      exact ⟨r1, fun a trans ha hn t ht => q a (ho.mem.2 ha) trans hn t ht, r2 hlocs⟩
    · intro a ha b b' hb hf
      have ha := ho.mem.1 ha
      obtain ⟨trans, h1, h2⟩ := bind_ok hf
      have := foldlM_trace (P := fun b => ∀ x ∈ b, s.Linked x) (R := R) (Q := fun (t : Transition F) b => t.target ∈ b)
        hR1 hR2 (fun b b' hb hr => hr.2 hb) (fun a b b' _ hq hr => hr.1.pre.subset hq) _ ?_ _ _ hb h2
      · refine ⟨this.1, fun trans' hn t ht => ?_⟩
        have hn' : s.next l a = .ok trans := h1
        rw [hn'] at hn
        cases hn
        exact this.2 t ht
      · intro t ht c c' hc hf
        have hlt : s.Linked t.target := .step hl ha h1 ht
        split at hf
        · next hany =>
          cases hf
          obtain ⟨x, hx, he⟩ := List.any_eq_true.1 hany
          rw [eqv_iff hs.good ((hc x hx).isLoc hs) (hlt.isLoc hs)] at he
          exact ⟨hR1 _, he ▸ hx⟩
        · next hany =>
          have hnot : t.target ∉ c := by
            intro hm
            exact hany (List.any_eq_true.2 ⟨_, hm, (eqv_iff hs.good (hlt.isLoc hs) (hlt.isLoc hs)).2 rfl⟩)
          have hc2 : ∀ x ∈ c ++ [t.target], s.Linked x := by
            intro x hx
            rcases List.mem_append.1 hx with hx | hx
            · exact hc x hx
            · rw [List.mem_singleton.1 hx]; exact hlt
          obtain ⟨r, cl, lk⟩ := collectReachable_spec hs ho fuel t.target _ _ hc2 hlt hf
          have hpre : c <+: c' := (List.prefix_append c [t.target]).trans r.pre
          have hmem : t.target ∈ c' := r.pre.subset (by simp)
          refine ⟨⟨⟨hpre, fun hn => r.nodup ?_, fun x hx hxn => ?_⟩, fun _ => lk⟩, hmem⟩
          · rw [List.nodup_append]
            refine ⟨hn, by simp, ?_⟩
            intro x hx y hy he
            rw [List.mem_singleton.1 hy] at he
            exact hnot (he ▸ hx)
          · by_cases hxt : x = t.target
            · rw [hxt]; exact cl
            · refine r.closed x hx ?_
              intro hm
              rcases List.mem_append.1 hm with hm | hm
              · exact hxn hm
              · exact hxt (List.mem_singleton.1 hm)

/-- With as many nested calls as there are locations the search ends. -/
theorem collectReachable_total {s : Sys F} (hs : s.Accepted) {ord : ActionOrder F} (ho : ord.For s)
    {all : List (LocTree F)} (hall : ∀ l, s.IsLoc l → l ∈ all) :
    ∀ (fuel : Nat) (l : LocTree F) (locs : List (LocTree F)), (∀ x ∈ locs, s.IsLoc x) → locs.Nodup → s.IsLoc l →
      all.length < fuel + locs.length → ∃ locs', collectReachable s.ts ord fuel l locs = .ok locs' ∧
        (∀ x ∈ locs', s.IsLoc x) ∧ locs'.Nodup ∧ locs.length ≤ locs'.length
  | 0, _, locs, hlocs, hn, _, hf => by
    have := (hn.subperm fun x hx => hall x (hlocs x hx)).length_le
    omega
  | fuel + 1, l, locs, hlocs, hn, hl, hf => by
    rw [collectReachable]
    refine foldlM_total (P := fun b => (∀ x ∈ b, s.IsLoc x) ∧ b.Nodup ∧ locs.length ≤ b.length) _ ?_ _
      ⟨hlocs, hn, le_refl _⟩
    rintro a ha b ⟨hb1, hb2, hb3⟩
    have ha := ho.mem.1 ha
    obtain ⟨trans, h1, h2⟩ := hs.good.next l a hl ha
    have h1' : s.ts.next l a = .ok trans := h1
    rw [h1', ok_bind]
    refine foldlM_total (P := fun b => (∀ x ∈ b, s.IsLoc x) ∧ b.Nodup ∧ locs.length ≤ b.length) _ ?_ _
      ⟨hb1, hb2, hb3⟩
    rintro t ht c ⟨hc1, hc2, hc3⟩
    have hlt := (h2 t ht).1
    split
    · exact ⟨c, rfl, hc1, hc2, hc3⟩
    · next hany =>
      have hnot : t.target ∉ c := by
        intro hm
        exact hany (List.any_eq_true.2 ⟨_, hm, (eqv_iff hs.good hlt hlt).2 rfl⟩)
      obtain ⟨c', e1, e2, e3, e4⟩ := collectReachable_total hs ho hall fuel t.target (c ++ [t.target])
        (by
          intro x hx
          rcases List.mem_append.1 hx with hx | hx
          · exact hc1 x hx
          · rw [List.mem_singleton.1 hx]; exact hlt)
        (by
          rw [List.nodup_append]
          refine ⟨hc2, by simp, ?_⟩
          intro x hx y hy he
          rw [List.mem_singleton.1 hy] at he
          exact hnot (he ▸ hx))
        hlt (by rw [List.length_append, List.length_singleton]; omega)
      rw [List.length_append, List.length_singleton] at e4
      exact ⟨c', e1, e2, e3, by omega⟩

end Reveaal
