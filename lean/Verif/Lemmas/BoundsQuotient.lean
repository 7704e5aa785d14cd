import Verif.Lemmas.BoundsCover

/-! # The bounds of quotients are good enough -/

namespace Reveaal
open ZoneLib
variable {F : Type} [ZoneLib F]

omit [ZoneLib F] in
theorem Bounds.Equiv.swap {b : Bounds} {v w : Val} (h : b.Equiv v w) : b.Equiv w v :=
  fun i => (h i).imp Eq.symm fun h m hm => ⟨(h m hm).2, (h m hm).1⟩

theorem Bounds.Covers.invOrUniv {b : Bounds} {l : LocTree F} (h : b.Covers (dim F) (InvSet l)) :
    b.Covers (dim F) (den l.invOrUniv) := by
  intro v w hv hw he hm
  rw [mem_invOrUniv] at hm ⊢
  exact ⟨hw, h v w hv hw he hm.2⟩

theorem Bounds.Covers.applyInvariants {b : Bounds} {l : LocTree F} {z : F} (h : b.Covers (dim F) (InvSet l))
    (hz : b.Covers (dim F) (den z)) : b.Covers (dim F) (den (l.applyInvariants z)) := by
  intro v w hv hw he hm
  rw [mem_applyInvariants] at hm ⊢
  exact ⟨hz v w hv hw he hm.1, h v w hv hw he hm.2⟩

theorem Bounds.Covers.inverse {b : Bounds} {z : F} (h : b.Covers (dim F) (den z)) :
    b.Covers (dim F) (den (ZoneLib.inverse z)) := by
  intro v w hv hw he hm
  rw [den_inverse] at hm ⊢
  exact ⟨hw, fun hz => hm.2 (h w v hw hv he.swap hz)⟩

theorem Bounds.Covers.appends {α : Type} {b : Bounds} {f : α → F} : ∀ (l : List α) (z : F),
    (∀ x ∈ l, b.Covers (dim F) (den (f x))) → b.Covers (dim F) (den z) →
      b.Covers (dim F) (den (l.foldl (fun g x => ZoneLib.append g (f x)) z))
  | [], _, _, hz => hz
  | x :: l, z, h, hz => by
    refine Bounds.Covers.appends l _ (fun y hy => h y (List.mem_cons_of_mem _ hy)) ?_
    rw [den_append]
    exact hz.union (h x List.mem_cons_self)

theorem Bounds.Covers.empty (b : Bounds) : b.Covers (dim F) (den (ZoneLib.empty : F)) := by
  intro v w _ _ _ hm
  rw [den_empty] at hm; exact hm.elim

/-- The set from which a transition may be taken is covered if its guard and the invariant of its target
are. -/
theorem Bounds.Covers.allowed {b : Bounds} {t : Transition F} (hu : UpdatesOk t.updates (dim F))
    (hg : b.Covers (dim F) (den t.guard)) (hi : b.Covers (dim F) (InvSet t.target)) :
    b.Covers (dim F) (den t.allowed) := by
  intro v w hv hw he hm
  rw [mem_allowed_code hu] at hm ⊢
  obtain ⟨h1, x, hx, h2, h3, h4⟩ := hm
  refine ⟨hg v w hv hw he h1, ?_⟩
  classical
  refine ⟨fun i => if ∃ u ∈ t.updates, u.clock = i then x i else w i, ⟨?_, ?_, ?_⟩, ?_, ?_, ?_⟩
  · dsimp only; split
    · exact hx.1
    · exact hw.1
  · intro i; dsimp only; split
    · exact hx.2.1 i
    · exact hw.2.1 i
  · intro i hn; dsimp only; split
    · exact hx.2.2 i hn
    · exact hw.2.2 i hn
  · refine hi x _ hx ⟨?_, ?_, ?_⟩ (fun i => ?_) h2
    · dsimp only; split
      · exact hx.1
      · exact hw.1
    · intro i; dsimp only; split
      · exact hx.2.1 i
      · exact hw.2.1 i
    · intro i hn; dsimp only; split
      · exact hx.2.2 i hn
      · exact hw.2.2 i hn
    · split
      · exact .inl rfl
      · rename_i hno
        push Not at hno
        rw [← h4 i hno]; exact he i
  · intro u hu'
    dsimp only
    rw [if_pos ⟨u, hu', rfl⟩]; exact h3 u hu'
  · intro i hno
    dsimp only
    rw [if_neg]
    rintro ⟨u, hu', hc⟩; exact hno u hu' hc

namespace Sys

theorem upperBound_covers {b : Bounds} {clock : Nat} (hb : b.Weaker (upperBound clock 0)) {S : Set Val}
    (h : ∀ v, Valid (dim F) v → (v ∈ S ↔ v clock = 0)) : b.Covers (dim F) S := by
  intro v w hv hw he hm
  rw [h v hv] at hm
  rw [h w hw]
  rcases hb.equiv he clock with he | he
  · rw [← he]; exact hm
  · have := (he 0 (by simp [upperBound])).1
    rw [hm] at this; simp at this

theorem boundsCover_quotient {T S x : Sys F} {clock : Nat} (hT : T.Good) (hS : S.Good) (cT : T.BoundsCover)
    (cS : S.BoundsCover) (h0 : 0 < clock) (hn : clock < dim F) (h : newQuotientUnchecked T S clock = .ok x) :
    x.BoundsCover := by
  obtain ⟨_, rfl⟩ := newQuotient_eq h
  generalize setUnion _ _ = ins
  generalize setUnion _ _ = outs
  generalize freshInput _ _ _ = ni
  have hns : ∀ a b : LocTree F, ((LocTree.merge a b).isUniversal || (LocTree.merge a b).isInconsistent) = false := by
    intro a b
    exact not_special (ty := a.ty.combine b.ty) rfl
      (by rcases combine_not_special a.ty b.ty with h | h <;> rw [h] <;> simp)
      (by rcases combine_not_special a.ty b.ty with h | h <;> rw [h] <;> simp)
  -- the bounds of a pair and of a special location
  have hpair : ∀ {a b : LocTree F} {bd}, (Sys.quotient T S ins outs clock ni).localBounds (LocTree.merge a b) = .ok bd →
      ∃ bT bS, T.localBounds a = .ok bT ∧ S.localBounds b = .ok bS ∧
        bd = Bounds.add (Bounds.add bT bS) (upperBound clock 0) := by
    intro a b bd hb
    unfold localBounds at hb
    rw [hns a b] at hb
    simp only [Bool.false_eq_true, if_false, LocTree.merge, LocTree.getLeft, LocTree.getRight, ok_bind] at hb
    obtain ⟨bT, h1, hb⟩ := bind_ok hb
    obtain ⟨bS, h2, hb⟩ := bind_ok hb
    exact ⟨bT, bS, h1, h2, (Except.ok.inj hb).symm⟩
  have hspec : ∀ {y : LocTree F} {bd}, (y = LocTree.universalLoc ∨ y = LocTree.errorLoc clock) →
      (Sys.quotient T S ins outs clock ni).localBounds y = .ok bd → bd = Bounds.add Bounds.new (upperBound clock 0) := by
    intro y bd hy hb
    unfold localBounds at hb
    rcases hy with rfl | rfl
    · exact (Except.ok.inj hb).symm
    · exact (Except.ok.inj hb).symm
  have hadd : ∀ b : Bounds, (Bounds.add b (upperBound clock 0)).Weaker (Bounds.add Bounds.new (upperBound clock 0)) := by
    intro b
    refine Bounds.Weaker.add ?_ (.refl _)
    intro i m hm; cases hm
  have side : ∀ {q : Sys F}, q.Good → q.BoundsCover → ∀ {y b a trans}, q.IsLoc y → q.localBounds y = .ok b →
      q.ifAvailable a (q.next y a) = .ok trans → ∀ t ∈ trans, b.Covers (dim F) (den (allowedFed y t)) ∧ q.IsLoc t.target ∧
        ∀ b', q.localBounds t.target = .ok b' → b.Weaker b' := by
    intro q hq cq y b a trans hy hb hm t ht
    unfold ifAvailable at hm
    split at hm
    · rename_i ha
      obtain ⟨htl, hg⟩ := hq.next_ok hy ha hm t ht
      obtain ⟨b', hb'⟩ := hq.bounds _ htl
      have hw : b.Weaker b' := cq.next hy hb ha hm ht hb'
      refine ⟨?_, htl, fun b'' hb'' => cq.next hy hb ha hm ht hb''⟩
      exact (cq.inv hy hb).applyInvariants
        (Bounds.Covers.allowed hg.upd (cq.guard hy hb ha hm ht) ((cq.inv htl hb').mono hw))
    · cases hm; cases ht
  -- a move from a pair
  have moves : ∀ {lt ls : LocTree F} {bT bS : Bounds} {a : String} {tt st : List (Transition F)},
      T.IsLoc lt → S.IsLoc ls → T.localBounds lt = .ok bT → S.localBounds ls = .ok bS →
      T.ifAvailable a (T.next lt a) = .ok tt → S.ifAvailable a (S.next ls a) = .ok st →
      ∀ t ∈ quotientMoves T S clock ni lt ls a tt st,
        (Bounds.add (Bounds.add bT bS) (upperBound clock 0)).Covers (dim F) (den t.guard) ∧
        ((t.target = LocTree.universalLoc ∨ t.target = LocTree.errorLoc clock) ∨
          ∃ lt' ls', t.target = LocTree.merge lt' ls' ∧ (∀ b', T.localBounds lt' = .ok b' → bT.Weaker b') ∧
            ∀ b', S.localBounds ls' = .ok b' → bS.Weaker b') := by
    intro lt ls bT bS a tt st hlt hls hbT hbS htt hst t ht
    have wT : (Bounds.add (Bounds.add bT bS) (upperBound clock 0)).Weaker bT :=
      (Bounds.weaker_add_left _ _).trans (Bounds.weaker_add_left _ _)
    have wS : (Bounds.add (Bounds.add bT bS) (upperBound clock 0)).Weaker bS :=
      (Bounds.weaker_add_left _ _).trans (Bounds.weaker_add_right _ _)
    have sT := side hT cT hlt hbT htt
    have sS := side hS cS hls hbS hst
    have iT := (cT.inv hlt hbT).mono wT
    have iS := (cS.inv hls hbS).mono wS
    have stayT : ∀ b', T.localBounds lt = .ok b' → bT.Weaker b' := by
      intro b' hb'; rw [hbT] at hb'; cases hb'; exact .refl _
    have stayS : ∀ b', S.localBounds ls = .ok b' → bS.Weaker b' := by
      intro b' hb'; rw [hbS] at hb'; cases hb'; exact .refl _
    have gT : ∀ t ∈ tt, (Bounds.add (Bounds.add bT bS) (upperBound clock 0)).Covers (dim F) (den (allowedFed lt t)) :=
      fun t ht => (sT t ht).1.mono wT
    have gS : ∀ t ∈ st, (Bounds.add (Bounds.add bT bS) (upperBound clock 0)).Covers (dim F) (den (allowedFed ls t)) :=
      fun t ht => (sS t ht).1.mono wS
    unfold quotientMoves at ht
    have ht := (List.mem_filter.1 ht).1
    simp only [List.mem_append] at ht
    rcases ht with ((((ht | ht) | ht) | ht) | ht) | ht
    · split at ht
      · obtain ⟨x, hx, ht⟩ := List.mem_flatMap.1 ht
        obtain ⟨y, hy, rfl⟩ := List.mem_map.1 ht
        refine ⟨?_, .inr ⟨_, _, rfl, (sT x hx).2.2, (sS y hy).2.2⟩⟩
        simp only [den_inter]; exact (gT x hx).inter (gS y hy)
      · cases ht
    · split at ht
      · obtain ⟨y, hy, rfl⟩ := List.mem_map.1 ht
        exact ⟨gS y hy, .inr ⟨_, _, rfl, stayT, (sS y hy).2.2⟩⟩
      · cases ht
    · split at ht
      · simp only [List.mem_singleton] at ht; subst ht
        refine ⟨?_, .inl (.inl rfl)⟩
        simp only [den_append]
        exact (iS.applyInvariants (Bounds.covers_univ _)).inverse.union
          (Bounds.Covers.appends _ _ gS (Bounds.Covers.empty _)).inverse
      · simp only [List.mem_singleton] at ht; subst ht
        exact ⟨(iS.applyInvariants (Bounds.covers_univ _)).inverse, .inl (.inl rfl)⟩
    · split at ht
      · obtain ⟨y, hy, rfl⟩ := List.mem_map.1 ht
        refine ⟨?_, .inl (.inr rfl)⟩
        simp only [den_inter]
        exact (gS y hy).inter (Bounds.Covers.appends _ _ gT (Bounds.Covers.empty _)).inverse
      · cases ht
    · split at ht
      · simp only [List.mem_singleton] at ht; subst ht
        refine ⟨?_, .inl (.inr rfl)⟩
        simp only [den_inter]
        exact iT.invOrUniv.inverse.inter iS.invOrUniv
      · cases ht
    · split at ht
      · obtain ⟨x, hx, rfl⟩ := List.mem_map.1 ht
        exact ⟨iS.applyInvariants (gT x hx), .inr ⟨_, _, rfl, (sT x hx).2.2, stayS⟩⟩
      · cases ht
  -- the moves from any location
  have all : ∀ {y bd a trans t}, (Sys.quotient T S ins outs clock ni).IsLoc y →
      (Sys.quotient T S ins outs clock ni).localBounds y = .ok bd →
      (Sys.quotient T S ins outs clock ni).hasAction a = true →
      (Sys.quotient T S ins outs clock ni).next y a = .ok trans → t ∈ trans →
      bd.Covers (dim F) (den t.guard) ∧
        ∀ b', (Sys.quotient T S ins outs clock ni).localBounds t.target = .ok b' → bd.Weaker b' := by
    intro y bd a trans t hy hb ha hnx ht
    have hbw : bd.Weaker (upperBound clock 0) := by
      rcases hy with ⟨a', b', _, _, rfl⟩ | hy
      · obtain ⟨_, _, _, _, rfl⟩ := hpair hb
        exact Bounds.weaker_add_right _ _
      · rw [hspec hy hb]
        exact Bounds.weaker_add_right _ _
    have stay : ∀ t : Transition F, t.target = y → ∀ b',
        (Sys.quotient T S ins outs clock ni).localBounds t.target = .ok b' → bd.Weaker b' := by
      intro t ht b' hb'
      rw [ht, hb] at hb'; cases hb'; exact .refl _
    rw [next_quotient ha] at hnx
    split at hnx
    · split at hnx
      · cases hnx
        rw [List.mem_singleton] at ht; subst ht
        refine ⟨upperBound_covers hbw fun v hv => ?_, stay _ rfl⟩
        show v ∈ den (constrainEq univ clock 0) ↔ _
        rw [den_constrainEq _ _ _ h0 hn, den_univ]
        exact ⟨fun h => by simpa using h.2, fun h => ⟨hv, by simpa using h⟩⟩
      · cases hnx; cases ht
    · split at hnx
      · cases hnx
        rw [List.mem_singleton] at ht; subst ht
        exact ⟨Bounds.covers_univ _, stay _ rfl⟩
      · rename_i h1 h2
        rcases hy with ⟨a', b', ha', hb', rfl⟩ | rfl | rfl
        · obtain ⟨bT, bS, hbT, hbS, rfl⟩ := hpair hb
          simp only [LocTree.merge, LocTree.getLeft, LocTree.getRight, ok_bind] at hnx
          obtain ⟨tt, h3, hnx⟩ := bind_ok hnx
          obtain ⟨st, h4, hnx⟩ := bind_ok hnx
          cases hnx
          obtain ⟨hg, hto⟩ := moves ha' hb' hbT hbS h3 h4 t ht
          refine ⟨hg, fun b'' hb'' => ?_⟩
          rcases hto with hto | ⟨lt', ls', hto, w1, w2⟩
          · rw [hspec hto hb'']; exact hadd _
          · rw [hto] at hb''
            obtain ⟨bT', bS', hT', hS', rfl⟩ := hpair hb''
            exact ((w1 _ hT').add (w2 _ hS')).add (.refl _)
        · exact absurd rfl h2
        · exact absurd rfl h1
  constructor
  · rintro y bd hy hb
    rcases hy with ⟨a', b', _, _, rfl⟩ | rfl | rfl
    · intro v w _ _ _ _ i hi; cases hi
    · intro v w _ _ _ _ i hi; cases hi
    · rw [hspec (.inr rfl) hb]
      refine upperBound_covers (Bounds.weaker_add_right _ _) fun v hv => ?_
      rw [invSet_errorLoc h0 hn]
      exact ⟨fun h => h.2, fun h => ⟨hv, h⟩⟩
  · intro y bd a trans t hy hb ha hnx ht
    exact (all hy hb ha hnx ht).1
  · intro y bd a trans t b' hy hb ha hnx ht hb'
    exact (all hy hb ha hnx ht).2 b' hb'

end Sys
end Reveaal
