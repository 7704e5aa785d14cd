import Verif.Lemmas.Product
import Verif.Spec.Quotient
import Verif.Examples
import Verif.Props.C06
import Verif.Props.C08

/-!
# C39 Quotient moves follow the quotient rules and block nothing it should allow
-/

namespace Reveaal
open ZoneLib
variable {F : Type} [ZoneLib F]

namespace Sys

/-- The cases of `quotientMoves` at one valuation. -/
theorem mem_quotientMoves {T S : Sys F} {clock : Nat} {ni : String} {lt ls : LocTree F} {a : String}
    {tt st : List (Transition F)} {v : Val} (hv : Valid (dim F) v) {x : LocTree F} {us : List CUpdate} :
    (∃ t ∈ quotientMoves T S clock ni lt ls a tt st, v ∈ den t.guard ∧ t.target = x ∧ t.updates = us) ↔
      (S.hasAction a = true ∧ T.hasAction a = true ∧ ∃ t ∈ tt, ∃ s ∈ st, v ∈ den (allowedFed lt t) ∧
        v ∈ den (allowedFed ls s) ∧ x = LocTree.merge t.target s.target ∧ us = t.updates ++ s.updates) ∨
      (S.hasAction a = true ∧ T.hasAction a = false ∧ ∃ s ∈ st, v ∈ den (allowedFed ls s) ∧
        x = LocTree.merge lt s.target ∧ us = s.updates) ∨
      ((v ∉ InvSet ls ∨ (a ∈ S.outputs ∧ ∀ s ∈ st, v ∉ den (allowedFed ls s))) ∧
        x = LocTree.universalLoc ∧ us = []) ∨
      (a ∈ S.outputs ∧ a ∈ T.outputs ∧ (∃ s ∈ st, v ∈ den (allowedFed ls s)) ∧
        (∀ t ∈ tt, v ∉ den (allowedFed lt t)) ∧ x = LocTree.errorLoc clock ∧ us = [⟨clock, 0⟩]) ∨
      (a = ni ∧ v ∉ InvSet lt ∧ v ∈ InvSet ls ∧ x = LocTree.errorLoc clock ∧ us = [⟨clock, 0⟩]) ∨
      (T.hasAction a = true ∧ S.hasAction a = false ∧ ∃ t ∈ tt, v ∈ den (allowedFed lt t) ∧
        v ∈ InvSet ls ∧ x = LocTree.merge t.target ls ∧ us = t.updates) := by
  have hne : ∀ t : Transition F, v ∈ den t.guard → isEmpty t.guard = false := fun t h =>
    isEmpty_false_iff.2 ⟨v, h⟩
  have hempty : v ∉ den (empty : F) := by rw [den_empty]; exact fun h => h
  constructor
  · rintro ⟨t, ht, hg, rfl, rfl⟩
    unfold quotientMoves at ht
    rw [List.mem_filter] at ht
    simp only [List.mem_append] at ht
    rcases ht.1 with ((((h | h) | h) | h) | h) | h
    · left
      split at h
      · rename_i hc
        rw [Bool.and_eq_true] at hc
        simp only [List.mem_flatMap, List.mem_map] at h
        obtain ⟨t1, ht1, s1, hs1, rfl⟩ := h
        simp only [den_inter, Set.mem_inter_iff] at hg
        exact ⟨hc.1, hc.2, t1, ht1, s1, hs1, hg.1, hg.2, rfl, rfl⟩
      · cases h
    · right; left
      split at h
      · rename_i hc
        rw [Bool.and_eq_true, Bool.not_eq_true'] at hc
        obtain ⟨s1, hs1, rfl⟩ := List.mem_map.1 h
        exact ⟨hc.1, hc.2, s1, hs1, hg, rfl, rfl⟩
      · cases h
    · right; right; left
      split at h
      · rename_i hc
        rw [List.contains_iff_mem] at hc
        rw [List.mem_singleton] at h
        subst h
        refine ⟨?_, rfl, rfl⟩
        simp only [den_append, den_inverse, Set.mem_union, Set.mem_ofPred_eq, mem_applyInvariants,
          den_univ, mem_foldl_append] at hg
        rcases hg with ⟨_, hg⟩ | ⟨_, hg⟩
        · exact .inl fun h => hg ⟨hv, h⟩
        · exact .inr ⟨hc, fun s hs h => hg (.inr ⟨s, hs, h⟩)⟩
      · rw [List.mem_singleton] at h
        subst h
        refine ⟨.inl fun h => ?_, rfl, rfl⟩
        simp only [den_inverse, Set.mem_ofPred_eq, mem_applyInvariants, den_univ] at hg
        exact hg.2 ⟨hv, h⟩
    · right; right; right; left
      split at h
      · rename_i hc
        rw [Bool.and_eq_true, List.contains_iff_mem, List.contains_iff_mem] at hc
        obtain ⟨s1, hs1, rfl⟩ := List.mem_map.1 h
        simp only [den_inter, den_inverse, Set.mem_inter_iff, Set.mem_ofPred_eq,
          mem_foldl_append] at hg
        exact ⟨hc.1, hc.2, ⟨s1, hs1, hg.1⟩, fun t ht h => hg.2.2 (.inr ⟨t, ht, h⟩), rfl, rfl⟩
      · cases h
    · right; right; right; right; left
      split at h
      · rename_i hc
        rw [List.mem_singleton] at h
        subst h
        simp only [den_inter, den_inverse, Set.mem_inter_iff, Set.mem_ofPred_eq,
          mem_invOrUniv] at hg
        exact ⟨hc, fun h => hg.1.2 ⟨hv, h⟩, hg.2.2, rfl, rfl⟩
      · cases h
    · right; right; right; right; right
      split at h
      · rename_i hc
        rw [Bool.and_eq_true, Bool.not_eq_true'] at hc
        obtain ⟨t1, ht1, rfl⟩ := List.mem_map.1 h
        rw [mem_applyInvariants] at hg
        exact ⟨hc.1, hc.2, t1, ht1, hg.1, hg.2, rfl, rfl⟩
      · cases h
  · have hin : ∀ t : Transition F, v ∈ den t.guard → t.target = x → t.updates = us →
        ∀ L : List (Transition F), t ∈ L → ∃ t ∈ L.filter (fun t => !(isEmpty t.guard)),
          v ∈ den t.guard ∧ t.target = x ∧ t.updates = us := by
      intro t hg h1 h2 L hL
      exact ⟨t, List.mem_filter.2 ⟨hL, by simp [hne t hg]⟩, hg, h1, h2⟩
    unfold quotientMoves
    rintro (⟨h1, h2, t, ht, s, hs, h3, h4, rfl, rfl⟩ | ⟨h1, h2, s, hs, h3, rfl, rfl⟩ |
      ⟨h1, rfl, rfl⟩ | ⟨h1, h2, ⟨s, hs, h3⟩, h4, rfl, rfl⟩ | ⟨h1, h2, h3, rfl, rfl⟩ |
      ⟨h1, h2, t, ht, h3, h4, rfl, rfl⟩)
    · refine hin ⟨.quotient [t.id] [s.id], inter (allowedFed lt t) (allowedFed ls s), _, _⟩ ?_ rfl rfl
        _ ?_
      · simp only [den_inter]; exact ⟨h3, h4⟩
      · simp only [List.mem_append]
        left; left; left; left; left
        rw [if_pos (by simp [h1, h2])]
        exact List.mem_flatMap.2 ⟨t, ht, List.mem_map.2 ⟨s, hs, rfl⟩⟩
    · refine hin ⟨.quotient [] [s.id], allowedFed ls s, _, _⟩ h3 rfl rfl _ ?_
      simp only [List.mem_append]
      left; left; left; left; right
      rw [if_pos (by simp [h1, h2])]
      exact List.mem_map.2 ⟨s, hs, rfl⟩
    · by_cases hc : a ∈ S.outputs
      · refine hin ⟨.quotient [] (st.map (·.id)), append (inverse (ls.applyInvariants univ))
          (inverse (st.foldl (fun g s => append g (allowedFed ls s)) empty)), _, _⟩ ?_ rfl rfl _ ?_
        · simp only [den_append, den_inverse, Set.mem_union, Set.mem_ofPred_eq, mem_applyInvariants,
            den_univ, mem_foldl_append]
          rcases h1 with h1 | ⟨_, h1⟩
          · exact .inl ⟨hv, fun h => h1 h.2⟩
          · refine .inr ⟨hv, ?_⟩
            rintro (h | ⟨s, hs, h⟩)
            · exact hempty h
            · exact h1 s hs h
        · simp only [List.mem_append]
          left; left; left; right
          rw [if_pos (by simpa using hc)]
          exact List.mem_singleton.2 rfl
      · refine hin ⟨.none, inverse (ls.applyInvariants univ), _, _⟩ ?_ rfl rfl _ ?_
        · simp only [den_inverse, Set.mem_ofPred_eq, mem_applyInvariants]
          rcases h1 with h1 | ⟨h1, _⟩
          · exact ⟨hv, fun h => h1 h.2⟩
          · exact absurd h1 hc
        · simp only [List.mem_append]
          left; left; left; right
          rw [if_neg (by simpa using hc)]
          exact List.mem_singleton.2 rfl
    · refine hin ⟨.quotient (tt.map (·.id)) [s.id], inter (allowedFed ls s)
        (inverse (tt.foldl (fun g t => append g (allowedFed lt t)) empty)), _, _⟩ ?_ rfl rfl _ ?_
      · simp only [den_inter, den_inverse, Set.mem_inter_iff, Set.mem_ofPred_eq, mem_foldl_append]
        refine ⟨h3, hv, ?_⟩
        rintro (h | ⟨t, ht, h⟩)
        · exact hempty h
        · exact h4 t ht h
      · simp only [List.mem_append]
        left; left; right
        rw [if_pos (by simp [h1, h2])]
        exact List.mem_map.2 ⟨s, hs, rfl⟩
    · refine hin ⟨.none, inter (inverse lt.invOrUniv) ls.invOrUniv, _, _⟩ ?_ rfl rfl _ ?_
      · simp only [den_inter, den_inverse, Set.mem_inter_iff, Set.mem_ofPred_eq, mem_invOrUniv]
        exact ⟨⟨hv, fun h => h2 h.2⟩, hv, h3⟩
      · simp only [List.mem_append]
        left; right
        rw [if_pos h1]
        exact List.mem_singleton.2 rfl
    · refine hin ⟨.quotient [t.id] [], ls.applyInvariants (allowedFed lt t), _, _⟩ ?_ rfl rfl _ ?_
      · rw [mem_applyInvariants]; exact ⟨h3, h4⟩
      · simp only [List.mem_append]
        right
        rw [if_pos (by simp [h1, h2])]
        exact List.mem_map.2 ⟨t, ht, rfl⟩

theorem quotient_pair_next {T S : Sys F} {i o : List String} {clock : Nat} {ni : String}
    (hT : T.Good) (hS : S.Good) {lt ls : LocTree F} (hlt : T.IsLoc lt) (hls : S.IsLoc ls) {a : String}
    (ha : (Sys.quotient T S i o clock ni).hasAction a = true) :
    ∃ tt st, T.ifAvailable a (T.next lt a) = .ok tt ∧ S.ifAvailable a (S.next ls a) = .ok st ∧
      (∀ t ∈ tt, T.IsLoc t.target ∧ GoodTrans T.clocks t) ∧
      (∀ t ∈ st, S.IsLoc t.target ∧ GoodTrans S.clocks t) ∧
      (Sys.quotient T S i o clock ni).next (LocTree.merge lt ls) a =
        .ok (quotientMoves T S clock ni lt ls a tt st) := by
  obtain ⟨tt, htt, gt⟩ := ifAvailable_good hT hlt a
  obtain ⟨st, hst, gs⟩ := ifAvailable_good hS hls a
  refine ⟨tt, st, htt, hst, gt, gs, ?_⟩
  rw [next_quotient ha]
  have h1 : (LocTree.merge lt ls).isInconsistent = false := by
    have : (LocTree.merge lt ls).ty = lt.ty.combine ls.ty := rfl
    unfold LocTree.isInconsistent
    rcases combine_not_special lt.ty ls.ty with h | h <;> simp [this, h]
  have h2 : (LocTree.merge lt ls).isUniversal = false := by
    have : (LocTree.merge lt ls).ty = lt.ty.combine ls.ty := rfl
    unfold LocTree.isUniversal
    rcases combine_not_special lt.ty ls.ty with h | h <;> simp [this, h]
  rw [h1, h2]
  have h3 : (LocTree.merge lt ls).getLeft = .ok lt := rfl
  have h4 : (LocTree.merge lt ls).getRight = .ok ls := rfl
  simp only [Bool.false_eq_true, if_false, h3, h4, ok_bind, htt, hst]

theorem ifAvailable_act {s : Sys F} {loc : LocTree F} {a : String} {ts : List (Transition F)}
    (h : s.ifAvailable a (s.next loc a) = .ok ts) {v v' : Val} {l' : LocTree F} :
    s.ts.Act loc v a l' v' ↔ s.hasAction a = true ∧ ∃ t ∈ ts, CanTake t v ∧ l' = t.target ∧
      v' = runUpdates t.updates v := by
  unfold ifAvailable at h
  unfold TS.Act
  constructor
  · rintro ⟨ha, trans, htr, t, ht, h1⟩
    have ha : s.hasAction a = true := ha
    rw [if_pos ha] at h
    have htr : s.next loc a = .ok trans := htr
    rw [h] at htr; cases htr
    exact ⟨ha, t, ht, h1⟩
  · rintro ⟨ha, t, ht, h1⟩
    rw [if_pos ha] at h
    exact ⟨ha, ts, h, t, ht, h1⟩

theorem ifAvailable_mem_hasAction {s : Sys F} {loc : LocTree F} {a : String}
    {ts : List (Transition F)} (h : s.ifAvailable a (s.next loc a) = .ok ts) {t : Transition F}
    (ht : t ∈ ts) : s.hasAction a = true := by
  unfold ifAvailable at h
  split at h
  · assumption
  · cases h; cases ht

theorem mem_allowedFed {C : List Nat} {l : LocTree F} {t : Transition F} (g : GoodTrans C t)
    (hc : NoConflict t.updates) {v : Val} : v ∈ den (allowedFed l t) ↔ v ∈ InvSet l ∧ CanTake t v := by
  unfold allowedFed
  rw [mem_applyInvariants, mem_allowed g.upd hc, and_comm]

/-- What a move of a quotient does, for any valuation in the guard. -/
theorem quotient_act {T S : Sys F} {i o : List String} {clock : Nat} {ni : String}
    (h0 : 0 < clock) (hn : clock < dim F) {lt ls : LocTree F}
    {a : String}
    (ha : (Sys.quotient T S i o clock ni).hasAction a = true) {tt st : List (Transition F)}
    (hnext : (Sys.quotient T S i o clock ni).next (LocTree.merge lt ls) a =
        .ok (quotientMoves T S clock ni lt ls a tt st))
    {v : Val} (hv : Valid (dim F) v) {x' : LocTree F} {v' : Val} :
    (Sys.quotient T S i o clock ni).ts.Act (LocTree.merge lt ls) v a x' v' ↔
      ∃ us, (∃ t ∈ quotientMoves T S clock ni lt ls a tt st, v ∈ den t.guard ∧ t.target = x' ∧
        t.updates = us) ∧ v' = runUpdates us v := by
  constructor
  · rintro ⟨_, trans, htr, t, ht, hc, rfl, rfl⟩
    have htr : (Sys.quotient T S i o clock ni).next _ _ = _ := htr
    rw [hnext] at htr; cases htr
    exact ⟨_, ⟨t, ht, hc.1, rfl, rfl⟩, rfl⟩
  · rintro ⟨us, ⟨t, ht, hg, rfl, rfl⟩, rfl⟩
    refine ⟨ha, _, hnext, t, ht, ⟨hg, ?_⟩, rfl, rfl⟩
    have := (mem_quotientMoves (T := T) (S := S) (clock := clock) (ni := ni) (lt := lt) (ls := ls)
      (a := a) (tt := tt) (st := st) hv (x := t.target) (us := t.updates)).1 ⟨t, ht, hg, rfl, rfl⟩
    have hmerge : ∀ (x y : LocTree F) (w : Val), w ∈ InvSet (LocTree.merge x y) := by
      intro x y w i hi; cases hi
    have herr : t.target = LocTree.errorLoc clock → t.updates = [⟨clock, 0⟩] →
        runUpdates t.updates v ∈ InvSet t.target := by
      intro h1 h2
      rw [h1, h2, invSet_errorLoc h0 hn]
      refine ⟨assign_valid hv h0 hn (by simp), ?_⟩
      show assign v clock _ clock = 0
      simp
    rcases this with ⟨_, _, t1, _, s1, _, _, _, h, _⟩ | ⟨_, _, s1, _, _, h, _⟩ | ⟨_, h, _⟩ |
      ⟨_, _, _, _, h, h'⟩ | ⟨_, _, _, h, h'⟩ | ⟨_, _, t1, _, _, _, h, _⟩
    · rw [h]; exact hmerge _ _ _
    · rw [h]; exact hmerge _ _ _
    · rw [h]; intro i hi; cases hi
    · exact herr h h'
    · exact herr h h'
    · rw [h]; exact hmerge _ _ _

end Sys

open Sys

/-- The moves of a quotient from a pair of locations, when no transition of the operands assigns one
clock twice with different values. -/
theorem Sys.quotient_moves {T S : Sys F} {ins outs : List String} {clock : Nat} {fresh : String}
    (hT : T.Accepted) (hS : S.Accepted) (h0 : 0 < clock) (hn : clock < dim F)
    (hdis : T.DisjointClocks S) {lt ls : LocTree F} (hlt : T.IsLoc lt) (hls : S.IsLoc ls)
    {a : String} (ha : (Sys.quotient T S ins outs clock fresh).hasAction a = true)
    (hcT : ∀ ts, T.next lt a = .ok ts → ∀ t ∈ ts, NoConflict t.updates)
    (hcS : ∀ ts, S.next ls a = .ok ts → ∀ t ∈ ts, NoConflict t.updates)
    {v : Val} (hv : Valid (dim F) v) {x' : LocTree F} {v' : Val} :
    (Sys.quotient T S ins outs clock fresh).ts.Act (LocTree.merge lt ls) v a x' v' ↔
      QuotRule T S clock fresh lt ls v a x' v' := by
  obtain ⟨tt, st, htt, hst, gt, gs, hnext⟩ := quotient_pair_next hT.good hS.good hlt hls ha
  rw [quotient_act h0 hn ha hnext hv]
  have hct : ∀ t ∈ tt, NoConflict t.updates := by
    intro t ht
    have h := ifAvailable_mem_hasAction htt ht
    unfold ifAvailable at htt
    rw [if_pos h] at htt
    exact hcT tt htt t ht
  have hcs : ∀ t ∈ st, NoConflict t.updates := by
    intro t ht
    have h := ifAvailable_mem_hasAction hst ht
    unfold ifAvailable at hst
    rw [if_pos h] at hst
    exact hcS st hst t ht
  have et : ∀ t ∈ tt, (v ∈ den (allowedFed lt t) ↔ v ∈ InvSet lt ∧ CanTake t v) := fun t ht =>
    mem_allowedFed (gt t ht).2 (hct t ht)
  have es : ∀ t ∈ st, (v ∈ den (allowedFed ls t) ↔ v ∈ InvSet ls ∧ CanTake t v) := fun t ht =>
    mem_allowedFed (gs t ht).2 (hcs t ht)
  have canT : T.hasAction a = true → ((∃ t ∈ tt, v ∈ den (allowedFed lt t)) ↔ T.CanDo lt v a) := by
    intro hact
    constructor
    · rintro ⟨t, ht, hm⟩
      obtain ⟨h1, h2⟩ := (et t ht).1 hm
      exact ⟨h1, _, _, (ifAvailable_act htt).2 ⟨hact, t, ht, h2, rfl, rfl⟩⟩
    · rintro ⟨h1, _, _, h2⟩
      obtain ⟨_, t, ht, hc, _⟩ := (ifAvailable_act htt).1 h2
      exact ⟨t, ht, (et t ht).2 ⟨h1, hc⟩⟩
  have canS : S.hasAction a = true → ((∃ t ∈ st, v ∈ den (allowedFed ls t)) ↔ S.CanDo ls v a) := by
    intro hact
    constructor
    · rintro ⟨t, ht, hm⟩
      obtain ⟨h1, h2⟩ := (es t ht).1 hm
      exact ⟨h1, _, _, (ifAvailable_act hst).2 ⟨hact, t, ht, h2, rfl, rfl⟩⟩
    · rintro ⟨h1, _, _, h2⟩
      obtain ⟨_, t, ht, hc, _⟩ := (ifAvailable_act hst).1 h2
      exact ⟨t, ht, (es t ht).2 ⟨h1, hc⟩⟩
  constructor
  · rintro ⟨us, hm, rfl⟩
    rcases (mem_quotientMoves hv).1 hm with ⟨h1, h2, t, ht, s, hs, h3, h4, rfl, rfl⟩ |
      ⟨h1, h2, s, hs, h3, rfl, rfl⟩ | ⟨h1, rfl, rfl⟩ | ⟨h1, h2, h3, h4, rfl, rfl⟩ |
      ⟨h1, h2, h3, rfl, rfl⟩ | ⟨h1, h2, t, ht, h3, h4, rfl, rfl⟩
    · obtain ⟨i1, c1⟩ := (et t ht).1 h3
      obtain ⟨i2, c2⟩ := (es s hs).1 h4
      refine .joint i1 i2 ((ifAvailable_act htt).2 ⟨h2, t, ht, c1, rfl, rfl⟩)
        ((ifAvailable_act hst).2 ⟨h1, s, hs, c2, rfl, rfl⟩) ?_ ?_ ?_
      · intro i hi
        rw [runUpdates_append]; exact (gs s hs).2.untouched (hdis i hi)
      · intro i hi
        rw [runUpdates_append]
        exact runUpdates_congr_at ((gt t ht).2.untouched fun h => hdis i h hi)
      · intro i hi hi'
        rw [runUpdates_append, (gs s hs).2.untouched hi', (gt t ht).2.untouched hi]
    · obtain ⟨i2, c2⟩ := (es s hs).1 h3
      exact .onlyS h2 i2 ((ifAvailable_act hst).2 ⟨h1, s, hs, c2, rfl, rfl⟩)
    · refine .universal (h1.imp_right fun ⟨ho, hno⟩ => ⟨ho, fun hcan => ?_⟩)
      obtain ⟨s, hs, h⟩ := (canS (hasAction_iff.2 (.inr ho))).2 hcan
      exact hno s hs h
    · have hv0 : runUpdates [⟨clock, 0⟩] v = assign v clock 0 := by simp [runUpdates]
      rw [hv0]
      refine .errorOutput h1 h2 ((canS (hasAction_iff.2 (.inr h1))).1 h3) fun hcan => ?_
      obtain ⟨t, ht, h⟩ := (canT (hasAction_iff.2 (.inr h2))).2 hcan
      exact h4 t ht h
    · have hv0 : runUpdates [⟨clock, 0⟩] v = assign v clock 0 := by simp [runUpdates]
      rw [hv0]
      exact .errorDelay h1 h2 h3
    · obtain ⟨i1, c1⟩ := (et t ht).1 h3
      exact .onlyT h2 i1 h4 ((ifAvailable_act htt).2 ⟨h1, t, ht, c1, rfl, rfl⟩)
  · intro h
    have hv0 : assign v clock 0 = runUpdates [⟨clock, 0⟩] v := by simp [runUpdates]
    cases h with
    | joint i1 i2 mt ms ct cs cr =>
      obtain ⟨h2, t, ht, c1, rfl, rfl⟩ := (ifAvailable_act htt).1 mt
      obtain ⟨h1, s, hs, c2, rfl, rfl⟩ := (ifAvailable_act hst).1 ms
      refine ⟨t.updates ++ s.updates, (mem_quotientMoves hv).2 (.inl ⟨h1, h2, t, ht, s, hs,
        (et t ht).2 ⟨i1, c1⟩, (es s hs).2 ⟨i2, c2⟩, rfl, rfl⟩), ?_⟩
      funext i
      rw [runUpdates_append]
      by_cases hi : i ∈ T.clocks
      · rw [ct i hi, (gs s hs).2.untouched (hdis i hi)]
      · by_cases hi' : i ∈ S.clocks
        · rw [cs i hi']
          exact (runUpdates_congr_at ((gt t ht).2.untouched hi)).symm
        · rw [cr i hi hi', (gs s hs).2.untouched hi', (gt t ht).2.untouched hi]
    | onlyS hno i2 ms =>
      obtain ⟨h1, s, hs, c2, rfl, rfl⟩ := (ifAvailable_act hst).1 ms
      exact ⟨_, (mem_quotientMoves hv).2 (.inr (.inl ⟨h1, hno, s, hs, (es s hs).2 ⟨i2, c2⟩, rfl, rfl⟩)),
        rfl⟩
    | onlyT hno i1 i2 mt =>
      obtain ⟨h2, t, ht, c1, rfl, rfl⟩ := (ifAvailable_act htt).1 mt
      exact ⟨_, (mem_quotientMoves hv).2 (.inr (.inr (.inr (.inr (.inr ⟨h2, hno, t, ht,
        (et t ht).2 ⟨i1, c1⟩, i2, rfl, rfl⟩))))), rfl⟩
    | universal h =>
      refine ⟨[], (mem_quotientMoves hv).2 (.inr (.inr (.inl ⟨h.imp_right fun ⟨ho, hno⟩ =>
        ⟨ho, fun s hs hm => hno ((canS (hasAction_iff.2 (.inr ho))).1 ⟨s, hs, hm⟩)⟩, rfl, rfl⟩))), rfl⟩
    | errorOutput h1 h2 h3 h4 =>
      refine ⟨[⟨clock, 0⟩], (mem_quotientMoves hv).2 (.inr (.inr (.inr (.inl ⟨h1, h2,
        (canS (hasAction_iff.2 (.inr h1))).2 h3, fun t ht hm =>
          h4 ((canT (hasAction_iff.2 (.inr h2))).1 ⟨t, ht, hm⟩), rfl, rfl⟩)))), hv0⟩
    | errorDelay h1 h2 h3 =>
      exact ⟨[⟨clock, 0⟩], (mem_quotientMoves hv).2 (.inr (.inr (.inr (.inr (.inl ⟨h1, h2, h3, rfl,
        rfl⟩))))), hv0⟩

/-- A quotient has one generated input that neither operand uses as an input or output of the other
side, and from every pair of locations its moves are exactly those of the quotient rules, provided no
transition of the operands assigns one clock twice with different values. -/
theorem C39_quotient_moves_partial {T S Q : Sys F} {clock : Nat} (hT : T.Accepted) (hS : S.Accepted)
    (h0 : 0 < clock) (hn : clock < dim F) (hQ : newQuotientUnchecked T S clock = .ok Q)
    (hdis : T.DisjointClocks S) :
    ∃ fresh, fresh ∈ Q.inputs ∧ fresh ∉ T.inputs ∧ fresh ∉ S.outputs ∧
      ∀ lt ls, T.IsLoc lt → S.IsLoc ls → ∀ a, Q.hasAction a = true →
        (∀ ts, T.next lt a = .ok ts → ∀ t ∈ ts, NoConflict t.updates) →
        (∀ ts, S.next ls a = .ok ts → ∀ t ∈ ts, NoConflict t.updates) →
        ∀ v, Valid (dim F) v → ∀ x' v',
          (Q.ts.Act (LocTree.merge lt ls) v a x' v' ↔ QuotRule T S clock fresh lt ls v a x' v') := by
  obtain ⟨_, rfl⟩ := newQuotient_eq hQ
  have hf := freshInput_fresh (setUnion T.inputs S.outputs)
  rw [mem_setUnion, not_or] at hf
  exact ⟨_, by rw [inputs_quotient]; simp [mem_setUnion], hf.1, hf.2,
    fun lt ls hlt hls a ha hcT hcS v hv x' v' => quotient_moves hT hS h0 hn hdis hlt hls ha hcT hcS hv⟩

/-- Every output of `S` is an input of the quotient, and the quotient has a move for it from every pair
of locations with every valuation. -/
theorem C39_inputs_never_blocked {T S Q : Sys F} {clock : Nat} (hT : T.Accepted) (hS : S.Accepted)
    (h0 : 0 < clock) (hn : clock < dim F) (hQ : newQuotientUnchecked T S clock = .ok Q)
    {lt ls : LocTree F} (hlt : T.IsLoc lt) (hls : S.IsLoc ls) {a : String} (ha : a ∈ S.outputs)
    {v : Val} (hv : Valid (dim F) v) :
    a ∈ Q.inputs ∧ ∃ x' v', Q.ts.Act (LocTree.merge lt ls) v a x' v' := by
  obtain ⟨hd, rfl⟩ := newQuotient_eq hQ
  have hin : a ∈ (Sys.quotient T S (setUnion (setUnion T.inputs S.outputs)
        [freshInput (setUnion T.inputs S.outputs) (setUnion T.inputs S.outputs).length 0])
      (setUnion (setDiff T.outputs S.outputs) (setDiff S.inputs T.inputs)) clock
      (freshInput (setUnion T.inputs S.outputs) (setUnion T.inputs S.outputs).length 0)).inputs := by
    rw [inputs_quotient]; simp [mem_setUnion, ha]
  refine ⟨hin, ?_⟩
  have hact := hasAction_iff.2 (.inl hin)
  obtain ⟨tt, st, htt, hst, gt, gs, hnext⟩ := quotient_pair_next hT.good hS.good hlt hls hact
  have hmk : ∀ x us, (∃ t ∈ quotientMoves T S clock _ lt ls a tt st, v ∈ den t.guard ∧ t.target = x ∧
      t.updates = us) → ∃ x' v', TS.Act _ (LocTree.merge lt ls) v a x' v' := fun x us h =>
    ⟨x, _, (quotient_act h0 hn hact hnext hv).2 ⟨us, h, rfl⟩⟩
  have hSa : S.hasAction a = true := hasAction_iff.2 (.inr ha)
  by_cases h1 : ∃ s ∈ st, v ∈ den (allowedFed ls s)
  · obtain ⟨s, hs, hm⟩ := h1
    by_cases h2 : T.hasAction a = true
    · by_cases h3 : ∃ t ∈ tt, v ∈ den (allowedFed lt t)
      · obtain ⟨t, ht, hm'⟩ := h3
        exact hmk _ _ ((mem_quotientMoves hv).2 (.inl ⟨hSa, h2, t, ht, s, hs, hm', hm, rfl, rfl⟩))
      · have hTo : a ∈ T.outputs := (hasAction_iff.1 h2).resolve_left (hd a ha)
        exact hmk _ _ ((mem_quotientMoves hv).2 (.inr (.inr (.inr (.inl ⟨ha, hTo, ⟨s, hs, hm⟩,
          fun t ht hm' => h3 ⟨t, ht, hm'⟩, rfl, rfl⟩)))))
    · exact hmk _ _ ((mem_quotientMoves hv).2 (.inr (.inl ⟨hSa, by simpa using h2, s, hs, hm, rfl, rfl⟩)))
  · exact hmk _ _ ((mem_quotientMoves hv).2 (.inr (.inr (.inl ⟨.inr ⟨ha, fun s hs hm => h1 ⟨s, hs, hm⟩⟩,
      rfl, rfl⟩))))

/-- After the universal location anything goes: every action is possible with every valuation, and the
quotient stays there with its clocks unchanged. -/
theorem C39_universal {T S : Sys F} {ins outs : List String} {clock : Nat} {fresh : String} {a : String}
    (ha : (Sys.quotient T S ins outs clock fresh).hasAction a = true) {v : Val}
    (hv : Valid (dim F) v) (x' : LocTree F) (v' : Val) :
    (Sys.quotient T S ins outs clock fresh).ts.Act LocTree.universalLoc v a x' v' ↔
      x' = LocTree.universalLoc ∧ v' = v := by
  have hnext : (Sys.quotient T S ins outs clock fresh).next LocTree.universalLoc a =
      .ok [Transition.withoutId LocTree.universalLoc] := by
    rw [next_quotient ha]; rfl
  constructor
  · rintro ⟨_, trans, htr, t, ht, hc, rfl, rfl⟩
    have htr : (Sys.quotient T S ins outs clock fresh).next _ _ = _ := htr
    rw [hnext] at htr; cases htr
    rw [List.mem_singleton] at ht; subst ht
    exact ⟨rfl, rfl⟩
  · rintro ⟨rfl, rfl⟩
    refine ⟨ha, _, hnext, _, List.mem_singleton.2 rfl, canTake_withoutId.2 ⟨hv, ?_⟩, rfl, rfl⟩
    intro i hi; cases hi

/-- In the error location time cannot pass, outputs are impossible, and inputs leave it in place. -/
theorem C39_error {T S : Sys F} {ins outs : List String} {clock : Nat} {fresh : String} {a : String}
    (h0 : 0 < clock) (hn : clock < dim F)
    (ha : (Sys.quotient T S ins outs clock fresh).hasAction a = true) {v : Val}
    (hv : Valid (dim F) v) (x' : LocTree F) (v' : Val) :
    ((Sys.quotient T S ins outs clock fresh).ts.Act (LocTree.errorLoc clock) v a x' v' ↔
      a ∈ ins ∧ v clock = 0 ∧ x' = LocTree.errorLoc clock ∧ v' = v) ∧
    ∀ d : ℝ, 0 < d → ¬ TS.CanDelay (LocTree.errorLoc clock : LocTree F) v d := by
  constructor
  · have hnext : (Sys.quotient T S ins outs clock fresh).next (LocTree.errorLoc clock) a =
        if ins.contains a then .ok [{ Transition.withoutId (LocTree.errorLoc clock) with
          guard := constrainEq univ clock 0 }] else .ok [] := by
      rw [next_quotient ha]; rfl
    constructor
    · rintro ⟨_, trans, htr, t, ht, hc, rfl, rfl⟩
      have htr : (Sys.quotient T S ins outs clock fresh).next _ _ = _ := htr
      rw [hnext] at htr
      split at htr
      · rename_i hin
        cases htr
        rw [List.mem_singleton] at ht; subst ht
        refine ⟨by simpa using hin, ?_, rfl, rfl⟩
        have := hc.1
        simp only [den_constrainEq _ _ _ h0 hn, Set.mem_ofPred_eq, Int.cast_zero] at this
        exact this.2
      · cases htr; cases ht
    · rintro ⟨hin, hz, rfl, rfl⟩
      rw [if_pos (by simpa using hin)] at hnext
      refine ⟨ha, _, hnext, _, List.mem_singleton.2 rfl, ⟨?_, ?_⟩, rfl, rfl⟩
      · simp only [den_constrainEq _ _ _ h0 hn, Set.mem_ofPred_eq, Int.cast_zero, den_univ]
        exact ⟨hv, hz⟩
      · exact (invSet_errorLoc h0 hn).2 ⟨hv, hz⟩
  · rintro d hd ⟨_, h⟩
    have h1 := ((invSet_errorLoc h0 hn).1 (h d hd.le le_rfl)).2
    unfold delay at h1
    rw [if_pos ⟨h0, hn⟩] at h1
    have := hv.2.1 clock
    linarith

/-- The quotient `C \\ A` with quotient clock 2. -/
def sysCA : Sys Fed4 := getOk (Sys.newQuotientUnchecked sysC sysA 2) (by decide +kernel)

/-- Look at the moves of a system from its initial location. -/
def Sys.initialMoves (s : Sys Fed4) (a : String) : List (Transition Fed4) :=
  (s.initialLoc >>= fun o => match o with
    | some x => s.next x a
    | none => .ok []).toOption.getD []

theorem Sys.initialMoves_eq {s : Sys Fed4} {x : LocTree Fed4} (hx : s.initialLoc = .ok (some x))
    {a : String} {ts : List (Transition Fed4)} (h : s.next x a = .ok ts) : s.initialMoves a = ts := by
  unfold Sys.initialMoves
  rw [hx]
  simp only [ok_bind, h]; rfl

/-- The hypotheses are met by `C \\ A` in the pair of initial locations, and the error location can be
entered there by nothing but the quotient's own input. -/
example : sysC.Accepted ∧ sysA.Accepted ∧ Sys.newQuotientUnchecked sysC sysA 2 = .ok sysCA ∧
    sysC.DisjointClocks sysA ∧ ∃ lt ls, sysC.IsLoc lt ∧ sysA.IsLoc ls ∧ sysCA.hasAction "go" = true ∧
      "out" ∈ sysA.outputs ∧
      (∀ ts, sysC.next lt "go" = .ok ts → ts ≠ [] ∧ ∀ t ∈ ts, NoConflict t.updates) ∧
      (∀ ts, sysA.next ls "go" = .ok ts → ts ≠ [] ∧ ∀ t ∈ ts, NoConflict t.updates) := by
  refine ⟨sysC_accepted, sysA_accepted, getOk_eq _, by unfold Sys.DisjointClocks; decide +kernel, ?_⟩
  have h : ∀ s : Sys Fed4, s.Accepted → (s.initialLoc.toOption.getD none).isSome = true →
      ∃ x, s.IsLoc x ∧ s.initialLoc = .ok (some x) := by
    intro s hs h
    obtain ⟨o, ho, hl⟩ := hs.good.initial
    rw [ho] at h
    obtain ⟨x, hx⟩ := Option.isSome_iff_exists.1 h
    have hx : o = some x := hx
    subst hx
    exact ⟨x, hl x rfl, ho⟩
  obtain ⟨lt, hlt, hit⟩ := h sysC sysC_accepted (by decide +kernel)
  obtain ⟨ls, hls, his⟩ := h sysA sysA_accepted (by decide +kernel)
  refine ⟨lt, ls, hlt, hls, by decide +kernel, by decide +kernel, ?_, ?_⟩
  · intro ts hts
    rw [← Sys.initialMoves_eq hit hts]
    have : ((sysC.initialMoves "go").length ≠ 0) ∧
      ((sysC.initialMoves "go").all fun t => decide (NoConflict t.updates)) = true := by decide +kernel
    refine ⟨fun hn => this.1 (by rw [hn]; rfl), fun t ht => ?_⟩
    simpa using (List.all_eq_true.1 this.2) t ht
  · intro ts hts
    rw [← Sys.initialMoves_eq his hts]
    have : ((sysA.initialMoves "go").length ≠ 0) ∧
      ((sysA.initialMoves "go").all fun t => decide (NoConflict t.updates)) = true := by decide +kernel
    refine ⟨fun hn => this.1 (by rw [hn]; rfl), fun t ht => ?_⟩
    simpa using (List.all_eq_true.1 this.2) t ht

/-- `T`: one location, output `a` with updates `x := 0, x := 1`. -/
def exConflictT : Component := ⟨"T", ⟨[], [("x", 1)]⟩, [⟨"L", none, .initial, "NORMAL"⟩],
  [⟨"e", "L", "L", .output, none, some [⟨"x", .int 0⟩, ⟨"x", .int 1⟩], "a"⟩]⟩
/-- `S`: one location, output `a`. -/
def exConflictS : Component := ⟨"S", ⟨[], [("y", 2)]⟩, [⟨"M", none, .initial, "NORMAL"⟩],
  [⟨"f", "M", "M", .output, none, none, "a"⟩]⟩

theorem exConflictT_ok : exConflictT.Ok (dim Fed4) := by
  constructor
  · intro p hp; simp [exConflictT] at hp; subst hp; decide
  · intro e he g hg
    simp only [exConflictT, List.mem_singleton] at he; subst he; cases hg
  · intro l hl g hg
    simp only [exConflictT, List.mem_singleton] at hl; subst hl; cases hg
  · intro e he us hus u hu v hv
    simp only [exConflictT, List.mem_singleton] at he; subst he
    cases hus
    simp only [List.mem_cons, List.not_mem_nil, or_false] at hu
    rcases hu with rfl | rfl <;> cases hv <;> decide

theorem exConflictS_ok : exConflictS.Ok (dim Fed4) := by
  constructor
  · intro p hp; simp [exConflictS] at hp; subst hp; decide
  · intro e he g hg
    simp only [exConflictS, List.mem_singleton] at he; subst he; cases hg
  · intro l hl g hg
    simp only [exConflictS, List.mem_singleton] at hl; subst hl; cases hg
  · intro e he us hus u hu v hv
    simp only [exConflictS, List.mem_singleton] at he; subst he; cases hus

/-- The restriction of `C39_quotient_moves_partial` is needed: if the output `a` of `T` assigns a clock
twice, the quotient goes to the error location on an output of `S` that `T` allows. -/
theorem C39_violated_conflicting_updates :
    ∃ (T S Q : Sys Fed4) (lt ls : LocTree Fed4), T.Accepted ∧ S.Accepted ∧ T.DisjointClocks S ∧
      Sys.newQuotientUnchecked T S 3 = .ok Q ∧ T.initialLoc = .ok (some lt) ∧
      S.initialLoc = .ok (some ls) ∧ T.CanDo lt zeroVal "a" ∧
      ∃ v', Q.ts.Act (LocTree.merge lt ls) zeroVal "a" (LocTree.errorLoc 3) v' := by
  let cT : CompComp Fed4 := getOk (CompComp.compile id exConflictT 0) (by decide +kernel)
  let cS : CompComp Fed4 := getOk (CompComp.compile id exConflictS 1) (by decide +kernel)
  let lt : LocTree Fed4 := .leaf (.simple "L") none .initial
  let ls : LocTree Fed4 := .leaf (.simple "M") none .initial
  let tt : Transition Fed4 := ⟨.simple "e", univ, lt, [⟨1, 0⟩, ⟨1, 1⟩]⟩
  let st : Transition Fed4 := ⟨.simple "f", univ, ls, []⟩
  have aT : (Sys.comp cT).Accepted := .comp exConflictT_ok (fun _ => .refl _) (getOk_eq _)
  have aS : (Sys.comp cS).Accepted := .comp exConflictS_ok (fun _ => .refl _) (getOk_eq _)
  have nT : (Sys.comp cT).next lt "a" = .ok [tt] := rfl
  have nS : (Sys.comp cS).next ls "a" = .ok [st] := rfl
  have hz : zeroVal ∈ den (univ : Fed4) := by rw [den_univ]; exact Sys.zeroVal_valid
  obtain ⟨Q, hQ⟩ : ∃ Q, Sys.newQuotientUnchecked (.comp cT) (.comp cS) 3 = .ok Q :=
    ⟨_, getOk_eq (by decide +kernel)⟩
  refine ⟨.comp cT, .comp cS, Q, lt, ls, aT, aS, ?_, hQ, rfl, rfl, ?_, ?_⟩
  · unfold Sys.DisjointClocks; decide +kernel
  · exact ⟨(by intro i hi; cases hi), _, _, rfl, _, nT, tt, List.mem_singleton.2 rfl,
      ⟨hz, (by intro i hi; cases hi)⟩, rfl, rfl⟩
  · obtain ⟨ins, outs, fresh, rfl, hin⟩ : ∃ ins outs fresh,
        Q = .quotient (.comp cT) (.comp cS) ins outs 3 fresh ∧ "a" ∈ ins := by
      refine ⟨_, _, _, (newQuotient_eq hQ).2, ?_⟩
      rw [mem_setUnion, mem_setUnion]
      exact .inl (.inr (by decide +kernel))
    have ha : (Sys.quotient (.comp cT) (.comp cS) ins outs 3 fresh).hasAction "a" = true :=
      hasAction_iff.2 (.inl hin)
    have hnext : (Sys.quotient (.comp cT) (.comp cS) ins outs 3 fresh).next (LocTree.merge lt ls) "a" =
        .ok (quotientMoves (.comp cT) (.comp cS) 3 fresh lt ls "a" [tt] [st]) := by
      rw [next_quotient ha]; rfl
    refine ⟨_, (quotient_act (by decide) (by decide) ha hnext zeroVal_valid).2 ⟨[⟨3, 0⟩],
      (mem_quotientMoves zeroVal_valid).2 (.inr (.inr (.inr (.inl ⟨by decide +kernel,
        by decide +kernel, ⟨st, List.mem_singleton.2 rfl, ?_⟩, ?_, rfl, rfl⟩)))), rfl⟩⟩
    · unfold allowedFed
      rw [mem_applyInvariants, mem_allowed (by intro u hu; cases hu) (by intro u hu; cases hu)]
      exact ⟨⟨hz, (by intro i hi; cases hi)⟩, (by intro i hi; cases hi)⟩
    · intro t ht
      rw [List.mem_singleton] at ht; subst ht
      unfold allowedFed
      rw [mem_applyInvariants, C06_conflict_empty tt (by decide) (by decide)]
      exact fun h => h.1

end Reveaal
