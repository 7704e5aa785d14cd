import Verif.Lemmas.Compile

/-! # Every system the tool builds is well behaved

By induction on the construction: looking up moves never panics, targets are locations again, guards
and invariants only depend on the clocks of the system, and identifiers determine locations.
-/

namespace Reveaal
open ZoneLib Arith
variable {F : Type} [ZoneLib F]

/-- The two operators that compose location trees. -/
def CompType.IsProd (c : CompType) : Prop := c = .conjunction ∨ c = .composition

theorem compose_ok {a b : LocTree F} {c : CompType} (hc : c.IsProd) :
    ∃ i x, LocTree.compose a b c = .ok x ∧
      x = .node i (LocTree.composeInv a.inv b.inv) (a.ty.combine b.ty) a b := by
  rcases hc with rfl | rfl
  · exact ⟨_, _, rfl, rfl⟩
  · exact ⟨_, _, rfl, rfl⟩

theorem compose_parts {a b x : LocTree F} {c : CompType} (h : LocTree.compose a b c = .ok x) :
    x.getLeft = .ok a ∧ x.getRight = .ok b ∧ x.inv = LocTree.composeInv a.inv b.inv ∧
      x.ty = a.ty.combine b.ty := by
  cases c <;> cases h <;> exact ⟨rfl, rfl, rfl, rfl⟩

theorem mem_compose_inv {a b x : LocTree F} {c : CompType} (h : LocTree.compose a b c = .ok x)
    {v : Val} : v ∈ InvSet x ↔ v ∈ InvSet a ∧ v ∈ InvSet b := by
  unfold InvSet
  rw [(compose_parts h).2.2.1]
  unfold LocTree.composeInv
  cases a.inv <;> cases b.inv <;> simp [den_inter]

theorem combine_ok {l r : Transition F} {c : CompType} (hc : c.IsProd) :
    ∃ i x, LocTree.compose l.target r.target c = .ok x ∧
      Transition.combine l r c = .ok ⟨i, inter l.guard r.guard, x, l.updates ++ r.updates⟩ := by
  rcases hc with rfl | rfl
  · exact ⟨_, _, rfl, rfl⟩
  · exact ⟨_, _, rfl, rfl⟩

/-- The joint transitions are exactly the pairs. -/
theorem combinations_ok {ls rs : List (Transition F)} {c : CompType} (hc : c.IsProd) :
    ∃ ts, Transition.combinations ls rs c = .ok ts ∧
      (∀ t ∈ ts, ∃ l ∈ ls, ∃ r ∈ rs, Transition.combine l r c = .ok t) ∧
      (∀ l ∈ ls, ∀ r ∈ rs, ∃ t ∈ ts, Transition.combine l r c = .ok t) := by
  unfold Transition.combinations
  obtain ⟨ts, h⟩ := mapM_total (f := fun p : Transition F × Transition F => Transition.combine p.1 p.2 c)
    (l := ls.flatMap fun l => rs.map fun r => (l, r)) (by
      intro p _
      obtain ⟨i, x, _, h⟩ := combine_ok (l := p.1) (r := p.2) hc
      exact ⟨_, h⟩)
  refine ⟨ts, h, fun t ht => ?_, fun l hl r hr => ?_⟩
  · obtain ⟨p, hp, he⟩ := forall2_mem_right (mapM_ok.1 h) t ht
    obtain ⟨l, hl, hp⟩ := List.mem_flatMap.1 hp
    obtain ⟨r, hr, rfl⟩ := List.mem_map.1 hp
    exact ⟨l, hl, r, hr, he⟩
  · exact forall2_mem_left (mapM_ok.1 h) (l, r)
      (List.mem_flatMap.2 ⟨l, hl, List.mem_map.2 ⟨r, hr, rfl⟩⟩)

theorem GoodTrans.mono {C D : List Nat} {t : Transition F} (h : GoodTrans C t)
    (hs : ∀ i ∈ C, i ∈ D) : GoodTrans D t :=
  ⟨h.upd, fun u hu => hs _ (h.own u hu), h.guard.mono hs, h.inv.mono hs⟩

theorem goodTrans_combine {C : List Nat} {l r t : Transition F} {c : CompType}
    (hl : GoodTrans C l) (hr : GoodTrans C r) (hc : c.IsProd) (h : Transition.combine l r c = .ok t) :
    GoodTrans C t := by
  obtain ⟨i, x, hx, h'⟩ := combine_ok (l := l) (r := r) hc
  rw [h'] at h; cases h
  refine ⟨hl.upd.append hr.upd, ?_, ?_, ?_⟩
  · intro u hu
    rcases List.mem_append.1 hu with hu | hu
    · exact hl.own u hu
    · exact hr.own u hu
  · rw [den_inter]; exact hl.guard.inter hr.guard
  · intro v w hv hw ha hm
    rw [mem_compose_inv hx] at hm ⊢
    exact ⟨hl.inv v w hv hw ha hm.1, hr.inv v w hv hw ha hm.2⟩

theorem univ_local {C : List Nat} : Local (dim F) C (den (univ : F)) := by
  rw [den_univ]; exact fun v w _ hw _ _ => hw

theorem goodTrans_withoutId {C : List Nat} {l : LocTree F} (h : Local (dim F) C (InvSet l)) :
    GoodTrans C (Transition.withoutId l) :=
  ⟨by simp [UpdatesOk, Transition.withoutId], by simp [Transition.withoutId], univ_local, h⟩

theorem invSet_none {l : LocTree F} (h : l.inv = none) {C : List Nat} :
    Local (dim F) C (InvSet l) := by
  intro v w _ _ _ _ i hi; rw [h] at hi; cases hi

theorem invSet_errorLoc {c : Nat} (h0 : 0 < c) (hn : c < dim F) {v : Val} :
    v ∈ InvSet (LocTree.errorLoc c : LocTree F) ↔ Valid (dim F) v ∧ v c = 0 := by
  unfold InvSet LocTree.errorLoc
  simp only [LocTree.inv, Option.some.injEq, Set.mem_ofPred_eq, forall_eq',
    den_constrainEq _ _ _ h0 hn, den_univ, Int.cast_zero]

theorem errorLoc_local {c : Nat} (h0 : 0 < c) (hn : c < dim F) {C : List Nat} (hc : c ∈ C) :
    Local (dim F) C (InvSet (LocTree.errorLoc c : LocTree F)) := by
  intro v w hv hw ha hm
  rw [invSet_errorLoc h0 hn] at hm ⊢
  exact ⟨hw, by rw [← ha c hc]; exact hm.2⟩

theorem applyInvariants_local {C : List Nat} {l : LocTree F} {z : F}
    (hl : Local (dim F) C (InvSet l)) (hz : Local (dim F) C (den z)) :
    Local (dim F) C (den (l.applyInvariants z)) := by
  intro v w hv hw ha hm
  rw [mem_applyInvariants] at hm ⊢
  exact ⟨hz v w hv hw ha hm.1, hl v w hv hw ha hm.2⟩

theorem invOrUniv_local {C : List Nat} {l : LocTree F}
    (hl : Local (dim F) C (InvSet l)) : Local (dim F) C (den l.invOrUniv) := by
  intro v w hv hw ha hm
  rw [mem_invOrUniv] at hm ⊢
  exact ⟨hw, hl v w hv hw ha hm.2⟩

theorem inverse_local {C : List Nat} {z : F} (hz : Local (dim F) C (den z)) :
    Local (dim F) C (den (inverse z)) := by
  rw [den_inverse]; exact hz.compl

theorem mem_foldl_append {α : Type} {f : α → F} {l : List α} {v : Val} : ∀ {z : F},
    v ∈ den (l.foldl (fun g s => append g (f s)) z) ↔ v ∈ den z ∨ ∃ s ∈ l, v ∈ den (f s) := by
  induction l with
  | nil => intro z; simp
  | cons a l ih =>
    intro z
    rw [List.foldl_cons, ih, den_append]
    simp only [Set.mem_union, List.mem_cons, exists_eq_or_imp]
    tauto

theorem foldl_append_local {α : Type} {C : List Nat} {f : α → F} {l : List α}
    (h : ∀ a ∈ l, Local (dim F) C (den (f a))) :
    Local (dim F) C (den (l.foldl (fun g s => append g (f s)) empty)) := by
  intro v w hv hw ha hm
  rw [mem_foldl_append] at hm ⊢
  rcases hm with hm | ⟨a, hal, hm⟩
  · rw [den_empty] at hm; cases hm
  · exact .inr ⟨a, hal, h a hal v w hv hw ha hm⟩

namespace Sys

/-- What is proved of every accepted system. -/
structure Good (s : Sys F) : Prop where
  clockDim : ∀ c ∈ s.clocks, 0 < c ∧ c < dim F
  initial : ∃ o, s.initialLoc = .ok o ∧ ∀ l, o = some l → s.IsLoc l
  invLocal : ∀ l, s.IsLoc l → Local (dim F) s.clocks (InvSet l)
  next : ∀ l a, s.IsLoc l → s.hasAction a = true → ∃ ts, s.next l a = .ok ts ∧
    ∀ t ∈ ts, s.IsLoc t.target ∧ GoodTrans s.clocks t
  bounds : ∀ l, s.IsLoc l → ∃ b, s.localBounds l = .ok b
  all : ∃ ls, s.allLocs = .ok ls ∧ ∀ l, l ∈ ls ↔ s.IsLoc l
  unique : ∀ a b, s.IsLoc a → s.IsLoc b → a.id = b.id → a = b

theorem good_comp {c : CompComp F} (h : c.WF) : (Sys.comp c).Good where
  clockDim := by
    intro i hi
    obtain ⟨p, hp, rfl⟩ := List.mem_map.1 hi
    exact h.declsOk p hp
  initial := ⟨_, rfl, fun l hl => (h.init l hl).1⟩
  invLocal := by rintro _ ⟨p, hp, rfl⟩; exact h.invLocal p hp
  next := by
    rintro _ a ⟨p, hp, rfl⟩ ha
    unfold Sys.next CompComp.next
    have ha' : (c.inputs.contains a || c.outputs.contains a) = true := ha
    rw [ha']
    simp only [Bool.not_true, Bool.false_eq_true, ↓reduceIte]
    have hw : GoodTrans (Sys.comp c).clocks (Transition.withoutId p.2) :=
      goodTrans_withoutId (h.invLocal p hp)
    split
    · refine ⟨_, rfl, fun t ht => ?_⟩
      simp only [List.mem_singleton] at ht; subst ht
      exact ⟨⟨p, hp, rfl⟩, hw⟩
    · split
      · refine ⟨_, rfl, fun t ht => ?_⟩
        simp only [List.mem_singleton] at ht; subst ht
        exact ⟨⟨p, hp, rfl⟩, hw⟩
      · obtain ⟨es, hes⟩ := h.edgeKeys p hp
        rw [h.ids p hp, hes]
        refine ⟨_, rfl, fun t ht => ?_⟩
        obtain ⟨x, hx, rfl⟩ := List.mem_map.1 ht
        exact h.edgesOk _ (lookup_mem hes) x (List.mem_filter.1 hx).1
  bounds := fun l _ => ⟨_, rfl⟩
  all := ⟨_, rfl, fun l => by
    simp only [List.mem_map]; rfl⟩
  unique := by
    rintro _ _ ⟨p, hp, rfl⟩ ⟨q, hq, rfl⟩ hid
    rw [h.ids p hp, h.ids q hq] at hid
    rw [nodup_keys_unique h.keys hp hq hid]

theorem pairs_all {l r : Sys F} {c : CompType} (hc : c.IsProd) {ls rs : List (LocTree F)}
    (h1 : ∀ x, x ∈ ls ↔ l.IsLoc x) (h2 : ∀ x, x ∈ rs ↔ r.IsLoc x) :
    ∃ xs, ((ls.flatMap fun a => rs.map fun b => (a, b)).mapM fun p =>
        LocTree.compose p.1 p.2 c) = .ok xs ∧
      ∀ x, x ∈ xs ↔ ∃ a b, l.IsLoc a ∧ r.IsLoc b ∧ LocTree.compose a b c = .ok x := by
  obtain ⟨xs, hxs⟩ := mapM_total (f := fun p : LocTree F × LocTree F => LocTree.compose p.1 p.2 c)
    (l := ls.flatMap fun l => rs.map fun r => (l, r)) (by
      intro p _
      obtain ⟨i, x, h, _⟩ := compose_ok (a := p.1) (b := p.2) hc
      exact ⟨_, h⟩)
  refine ⟨xs, hxs, fun x => ⟨fun hx => ?_, ?_⟩⟩
  · obtain ⟨p, hp, he⟩ := forall2_mem_right (mapM_ok.1 hxs) x hx
    obtain ⟨a, ha, hp⟩ := List.mem_flatMap.1 hp
    obtain ⟨b, hb, rfl⟩ := List.mem_map.1 hp
    exact ⟨a, b, (h1 a).1 ha, (h2 b).1 hb, he⟩
  · rintro ⟨a, b, ha, hb, he⟩
    obtain ⟨y, hy, he'⟩ := forall2_mem_left (mapM_ok.1 hxs) (a, b)
      (List.mem_flatMap.2 ⟨a, (h1 a).2 ha, List.mem_map.2 ⟨b, (h2 b).2 hb, rfl⟩⟩)
    simp only at he'
    rw [he] at he'; cases he'; exact hy

theorem compose_unique {l r : Sys F} {c : CompType} (hl : l.Good) (hr : r.Good)
    {a b a' b' x y : LocTree F} (ha : l.IsLoc a) (hb : r.IsLoc b) (ha' : l.IsLoc a')
    (hb' : r.IsLoc b') (hx : LocTree.compose a b c = .ok x) (hy : LocTree.compose a' b' c = .ok y)
    (hid : x.id = y.id) : x = y := by
  have : a.id = a'.id ∧ b.id = b'.id := by
    cases c <;> cases hx <;> cases hy <;> simpa [LocTree.id] using hid
  rw [hl.unique a a' ha ha' this.1, hr.unique b b' hb hb' this.2, hy] at hx
  cases hx; rfl

/-- The part shared by composition and conjunction. -/
theorem good_prod_initial {l r : Sys F} {c : CompType} (hc : c.IsProd) (hl : l.Good) (hr : r.Good) :
    ∃ o, (do
      match ← l.initialLoc with
      | none => .ok none
      | some a =>
        match ← r.initialLoc with
        | none => .ok none
        | some b => do
          let x ← LocTree.compose a b c
          .ok (some x) : Res (Option (LocTree F))) = .ok o ∧
      ∀ x, o = some x → ∃ a b, l.IsLoc a ∧ r.IsLoc b ∧ LocTree.compose a b c = .ok x := by
  obtain ⟨ol, hol, hl'⟩ := hl.initial
  obtain ⟨or, hor, hr'⟩ := hr.initial
  rw [hol, hor]
  cases ol with
  | none => exact ⟨none, rfl, by rintro x ⟨⟩⟩
  | some a =>
    cases or with
    | none => exact ⟨none, rfl, by rintro x ⟨⟩⟩
    | some b =>
      obtain ⟨i, x, hx, _⟩ := compose_ok (a := a) (b := b) hc
      refine ⟨some x, by simp [hx], ?_⟩
      rintro y ⟨⟩
      exact ⟨a, b, hl' a rfl, hr' b rfl, hx⟩


section
omit [ZoneLib F]
theorem inputs_composition {l r : Sys F} {i o lu ru cm : List String} :
    (Sys.composition l r i o lu ru cm).inputs = i := rfl
theorem outputs_composition {l r : Sys F} {i o lu ru cm : List String} :
    (Sys.composition l r i o lu ru cm).outputs = o := rfl
theorem inputs_conjunction {l r : Sys F} {i o : List String} :
    (Sys.conjunction l r i o).inputs = i := rfl
theorem outputs_conjunction {l r : Sys F} {i o : List String} :
    (Sys.conjunction l r i o).outputs = o := rfl
theorem inputs_quotient {l r : Sys F} {i o : List String} {c : Nat} {n : String} :
    (Sys.quotient l r i o c n).inputs = i := rfl
theorem outputs_quotient {l r : Sys F} {i o : List String} {c : Nat} {n : String} :
    (Sys.quotient l r i o c n).outputs = o := rfl
end

theorem next_composition {l r : Sys F} {i o lu ru cm : List String} {x : LocTree F} {a : String}
    (h : (Sys.composition l r i o lu ru cm).hasAction a = true) :
    (Sys.composition l r i o lu ru cm).next x a = (do
      let ll ← x.getLeft
      let lr ← x.getRight
      if cm.contains a then do
        let left ← l.next ll a
        let right ← r.next lr a
        Transition.combinations left right .composition
      else if lu.contains a then do
        let left ← l.next ll a
        Transition.combinations left [Transition.withoutId lr] .composition
      else if ru.contains a then do
        let right ← r.next lr a
        Transition.combinations [Transition.withoutId ll] right .composition
      else .error (.panic "internal error: entered unreachable code")) := by
  have h : (i.contains a || o.contains a) = true := h
  rw [Sys.next, h]; rfl

theorem next_conjunction {l r : Sys F} {i o : List String} {x : LocTree F} {a : String}
    (h : (Sys.conjunction l r i o).hasAction a = true) :
    (Sys.conjunction l r i o).next x a = (do
      let ll ← x.getLeft
      let lr ← x.getRight
      let left ← l.next ll a
      let right ← r.next lr a
      Transition.combinations left right .conjunction) := by
  have h : (i.contains a || o.contains a) = true := h
  rw [Sys.next, h]; rfl

theorem next_quotient {T S : Sys F} {i o : List String} {clock : Nat} {newInput : String}
    {x : LocTree F} {a : String} (h : (Sys.quotient T S i o clock newInput).hasAction a = true) :
    (Sys.quotient T S i o clock newInput).next x a =
      if x.isInconsistent then
        if i.contains a then
          .ok [{ Transition.withoutId x with guard := constrainEq univ clock 0 }]
        else .ok []
      else if x.isUniversal then .ok [Transition.withoutId x]
      else (do
        let lt ← x.getLeft
        let ls ← x.getRight
        let tt ← T.ifAvailable a (T.next lt a)
        let st ← S.ifAvailable a (S.next ls a)
        .ok (quotientMoves T S clock newInput lt ls a tt st)) := by
  have h : (i.contains a || o.contains a) = true := h
  rw [Sys.next, h]; rfl

omit [ZoneLib F] in
theorem newComposition_eq {l r s : Sys F} (h : newComposition l r = .ok s) :
    (∀ a ∈ l.outputs, a ∉ r.outputs) ∧
    s = .composition l r
      (mkSet ((l.inputs.filter fun a => !(r.outputs.contains a)) ++
        (r.inputs.filter fun a => !(l.outputs.contains a))))
      (setUnion l.outputs r.outputs)
      (setDiff (setUnion l.inputs l.outputs) (setUnion r.inputs r.outputs))
      (setDiff (setUnion r.inputs r.outputs) (setUnion l.inputs l.outputs))
      (setInter (setUnion l.inputs l.outputs) (setUnion r.inputs r.outputs)) := by
  unfold newComposition at h
  split at h
  · cases h
  · rename_i hd
    simp only [Bool.not_eq_true, Bool.not_eq_false'] at hd
    cases h
    exact ⟨setDisjoint_iff.1 hd, rfl⟩

omit [ZoneLib F] in
theorem newConjunction_eq {l r s : Sys F} (h : newConjunctionUnchecked l r = .ok s) :
    (∀ a ∈ l.inputs, a ∉ r.outputs) ∧ (∀ a ∈ l.outputs, a ∉ r.inputs) ∧
    s = .conjunction l r (setInter l.inputs r.inputs) (setInter l.outputs r.outputs) := by
  unfold newConjunctionUnchecked at h
  split at h
  · cases h
  · split at h
    · cases h
    · rename_i h1 h2
      simp only [Bool.not_eq_true, Bool.not_eq_false'] at h1 h2
      cases h
      exact ⟨setDisjoint_iff.1 h1, setDisjoint_iff.1 h2, rfl⟩

omit [ZoneLib F] in
theorem newQuotient_eq {T S x : Sys F} {clock : Nat} (h : newQuotientUnchecked T S clock = .ok x) :
    (∀ a ∈ S.outputs, a ∉ T.inputs) ∧
    x = .quotient T S (setUnion (setUnion T.inputs S.outputs)
        [freshInput (setUnion T.inputs S.outputs) (setUnion T.inputs S.outputs).length 0])
      (setUnion (setDiff T.outputs S.outputs) (setDiff S.inputs T.inputs)) clock
      (freshInput (setUnion T.inputs S.outputs) (setUnion T.inputs S.outputs).length 0) := by
  unfold newQuotientUnchecked at h
  split at h
  · cases h
  · rename_i hd
    simp only [Bool.not_eq_true, Bool.not_eq_false'] at hd
    cases h
    exact ⟨setDisjoint_iff.1 hd, rfl⟩

/-- Moves of a product: from the moves of the sides. -/
theorem combinations_good {l r : Sys F} {c : CompType} (hc : c.IsProd) {C : List Nat}
    {ls rs : List (Transition F)} (hl : ∀ t ∈ ls, l.IsLoc t.target ∧ GoodTrans C t)
    (hr : ∀ t ∈ rs, r.IsLoc t.target ∧ GoodTrans C t) :
    ∃ ts, Transition.combinations ls rs c = .ok ts ∧ ∀ t ∈ ts,
      (∃ a b, l.IsLoc a ∧ r.IsLoc b ∧ LocTree.compose a b c = .ok t.target) ∧ GoodTrans C t := by
  obtain ⟨ts, hts, h1, _⟩ := combinations_ok (ls := ls) (rs := rs) hc
  refine ⟨ts, hts, fun t ht => ?_⟩
  obtain ⟨x, hx, y, hy, he⟩ := h1 t ht
  refine ⟨?_, goodTrans_combine (hl x hx).2 (hr y hy).2 hc he⟩
  obtain ⟨i, z, hz, he'⟩ := combine_ok (l := x) (r := y) hc
  rw [he'] at he; cases he
  exact ⟨_, _, (hl x hx).1, (hr y hy).1, hz⟩

theorem goodTrans_left {l r : Sys F} {ts : List (Transition F)}
    (h : ∀ t ∈ ts, l.IsLoc t.target ∧ GoodTrans l.clocks t) :
    ∀ t ∈ ts, l.IsLoc t.target ∧ GoodTrans (l.clocks ++ r.clocks) t :=
  fun t ht => ⟨(h t ht).1, (h t ht).2.mono fun _ hi => List.mem_append.2 (.inl hi)⟩

theorem goodTrans_right {l r : Sys F} {ts : List (Transition F)}
    (h : ∀ t ∈ ts, r.IsLoc t.target ∧ GoodTrans r.clocks t) :
    ∀ t ∈ ts, r.IsLoc t.target ∧ GoodTrans (l.clocks ++ r.clocks) t :=
  fun t ht => ⟨(h t ht).1, (h t ht).2.mono fun _ hi => List.mem_append.2 (.inr hi)⟩

theorem stay_good {s : Sys F} (hs : s.Good) {x : LocTree F} (hx : s.IsLoc x) :
    ∀ t ∈ [Transition.withoutId x], s.IsLoc t.target ∧ GoodTrans s.clocks t := by
  intro t ht
  simp only [List.mem_singleton] at ht; subst ht
  exact ⟨hx, goodTrans_withoutId (hs.invLocal x hx)⟩

theorem compose_invLocal {l r : Sys F} {c : CompType} (hl : l.Good) (hr : r.Good) {a b x : LocTree F}
    (ha : l.IsLoc a) (hb : r.IsLoc b) (hx : LocTree.compose a b c = .ok x) :
    Local (dim F) (l.clocks ++ r.clocks) (InvSet x) := by
  intro v w hv hw hag hm
  rw [mem_compose_inv hx] at hm ⊢
  exact ⟨hl.invLocal a ha v w hv hw (fun i hi => hag i (by simp [hi])) hm.1,
    hr.invLocal b hb v w hv hw (fun i hi => hag i (by simp [hi])) hm.2⟩

theorem prod_bounds {l r : Sys F} {c : CompType} (hl : l.Good) (hr : r.Good) {a b x : LocTree F}
    (ha : l.IsLoc a) (hb : r.IsLoc b) (hx : LocTree.compose a b c = .ok x) :
    ∃ bd, (do
      let ll ← x.getLeft
      let lr ← x.getRight
      let bl ← l.localBounds ll
      let br ← r.localBounds lr
      .ok (Bounds.add bl br) : Res Bounds) = .ok bd := by
  obtain ⟨b1, h1⟩ := hl.bounds a ha
  obtain ⟨b2, h2⟩ := hr.bounds b hb
  rw [(compose_parts hx).1, (compose_parts hx).2.1]
  simp only [ok_bind, h1, h2]
  exact ⟨_, rfl⟩

theorem good_composition {l r s : Sys F} (hl : l.Good) (hr : r.Good)
    (h : newComposition l r = .ok s) : s.Good := by
  obtain ⟨_, rfl⟩ := newComposition_eq h
  have hc : CompType.composition.IsProd := .inr rfl
  constructor
  · intro i hi
    rcases List.mem_append.1 hi with hi | hi
    · exact hl.clockDim i hi
    · exact hr.clockDim i hi
  · exact good_prod_initial hc hl hr
  · rintro x ⟨a, b, ha, hb, hx⟩
    exact compose_invLocal hl hr ha hb hx
  · rintro x act ⟨a, b, ha, hb, hx⟩ hact
    have hact' := hasAction_iff.1 hact
    rw [next_composition hact, (compose_parts hx).1, (compose_parts hx).2.1]
    simp only [ok_bind]
    split
    · rename_i hcm
      rw [List.contains_iff_mem, mem_setInter, mem_setUnion, mem_setUnion] at hcm
      obtain ⟨ls, h1, h2⟩ := hl.next a act ha (hasAction_iff.2 hcm.1)
      obtain ⟨rs, h3, h4⟩ := hr.next b act hb (hasAction_iff.2 hcm.2)
      rw [h1, h3]
      exact combinations_good hc (goodTrans_left h2) (goodTrans_right h4)
    · split
      · rename_i _ hcm
        rw [List.contains_iff_mem, mem_setDiff, mem_setUnion, mem_setUnion] at hcm
        obtain ⟨ls, h1, h2⟩ := hl.next a act ha (hasAction_iff.2 hcm.1)
        rw [h1]
        exact combinations_good hc (goodTrans_left h2) (goodTrans_right (stay_good hr hb))
      · split
        · rename_i _ _ hcm
          rw [List.contains_iff_mem, mem_setDiff, mem_setUnion, mem_setUnion] at hcm
          obtain ⟨rs, h3, h4⟩ := hr.next b act hb (hasAction_iff.2 hcm.1)
          rw [h3]
          exact combinations_good hc (goodTrans_left (stay_good hl ha)) (goodTrans_right h4)
        · rename_i h1 h2 h3
          exfalso
          simp only [List.contains_iff_mem, mem_setDiff, mem_setInter, mem_setUnion] at h1 h2 h3
          rw [inputs_composition, outputs_composition] at hact'
          simp only [mem_mkSet, mem_setUnion, List.mem_append, List.mem_filter] at hact'
          tauto
  · rintro x ⟨a, b, ha, hb, hx⟩
    exact prod_bounds hl hr ha hb hx
  · obtain ⟨ls, h1, h2⟩ := hl.all
    obtain ⟨rs, h3, h4⟩ := hr.all
    obtain ⟨xs, h5, h6⟩ := pairs_all hc h2 h4
    exact ⟨xs, by unfold allLocs; rw [h1, h3]; exact h5, h6⟩
  · rintro x y ⟨a, b, ha, hb, hx⟩ ⟨a', b', ha', hb', hy⟩ hid
    exact compose_unique hl hr ha hb ha' hb' hx hy hid

theorem good_conjunction {l r s : Sys F} (hl : l.Good) (hr : r.Good)
    (h : newConjunctionUnchecked l r = .ok s) : s.Good := by
  obtain ⟨_, _, rfl⟩ := newConjunction_eq h
  have hc : CompType.conjunction.IsProd := .inl rfl
  constructor
  · intro i hi
    rcases List.mem_append.1 hi with hi | hi
    · exact hl.clockDim i hi
    · exact hr.clockDim i hi
  · exact good_prod_initial hc hl hr
  · rintro x ⟨a, b, ha, hb, hx⟩
    exact compose_invLocal hl hr ha hb hx
  · rintro x act ⟨a, b, ha, hb, hx⟩ hact
    have hact' := hasAction_iff.1 hact
    rw [next_conjunction hact, (compose_parts hx).1, (compose_parts hx).2.1]
    simp only [ok_bind]
    rw [inputs_conjunction, outputs_conjunction] at hact'
    simp only [mem_setInter] at hact'
    obtain ⟨ls, h1, h2⟩ := hl.next a act ha (hasAction_iff.2 (by tauto))
    obtain ⟨rs, h3, h4⟩ := hr.next b act hb (hasAction_iff.2 (by tauto))
    rw [h1, h3]
    exact combinations_good hc (goodTrans_left h2) (goodTrans_right h4)
  · rintro x ⟨a, b, ha, hb, hx⟩
    exact prod_bounds hl hr ha hb hx
  · obtain ⟨ls, h1, h2⟩ := hl.all
    obtain ⟨rs, h3, h4⟩ := hr.all
    obtain ⟨xs, h5, h6⟩ := pairs_all hc h2 h4
    exact ⟨xs, by unfold allLocs; rw [h1, h3]; exact h5, h6⟩
  · rintro x y ⟨a, b, ha, hb, hx⟩ ⟨a', b', ha', hb', hy⟩ hid
    exact compose_unique hl hr ha hb ha' hb' hx hy hid

theorem ifAvailable_good {s : Sys F} (hs : s.Good) {x : LocTree F} (hx : s.IsLoc x) (a : String) :
    ∃ ts, s.ifAvailable a (s.next x a) = .ok ts ∧
      ∀ t ∈ ts, s.IsLoc t.target ∧ GoodTrans s.clocks t := by
  unfold ifAvailable
  split
  · rename_i h; exact hs.next x a hx h
  · exact ⟨[], rfl, by simp⟩

theorem allowedFed_local {C : List Nat} {l : LocTree F} {t : Transition F}
    (hl : Local (dim F) C (InvSet l)) (ht : GoodTrans C t) :
    Local (dim F) C (den (allowedFed l t)) := applyInvariants_local hl ht.allowed

theorem combine_not_special (a b : LocType) : a.combine b = .initial ∨ a.combine b = .normal := by
  unfold LocType.combine; split <;> simp

theorem quotientMoves_good {T S : Sys F} {clock : Nat} {newInput : String} (h0 : 0 < clock)
    (hn : clock < dim F) {lt ls : LocTree F} {a : String} {i o : List String}
    {tt st : List (Transition F)} (hlt : T.IsLoc lt) (hls : S.IsLoc ls) (hT : T.Good) (hS : S.Good)
    (htt : ∀ t ∈ tt, T.IsLoc t.target ∧ GoodTrans T.clocks t)
    (hst : ∀ t ∈ st, S.IsLoc t.target ∧ GoodTrans S.clocks t) :
    ∀ t ∈ quotientMoves T S clock newInput lt ls a tt st,
      (Sys.quotient T S i o clock newInput).IsLoc t.target ∧
      GoodTrans (T.clocks ++ S.clocks ++ [clock]) t := by
  intro t ht
  have hC1 : ∀ i ∈ T.clocks, i ∈ T.clocks ++ S.clocks ++ [clock] := by
    intro i hi; simp [hi]
  have hC2 : ∀ i ∈ S.clocks, i ∈ T.clocks ++ S.clocks ++ [clock] := by
    intro i hi; simp [hi]
  have hC3 : clock ∈ T.clocks ++ S.clocks ++ [clock] := by simp
  replace htt : ∀ t ∈ tt, T.IsLoc t.target ∧ GoodTrans (T.clocks ++ S.clocks ++ [clock]) t :=
    fun t ht => ⟨(htt t ht).1, (htt t ht).2.mono hC1⟩
  replace hst : ∀ t ∈ st, S.IsLoc t.target ∧ GoodTrans (T.clocks ++ S.clocks ++ [clock]) t :=
    fun t ht => ⟨(hst t ht).1, (hst t ht).2.mono hC2⟩
  have hit := (hT.invLocal lt hlt).mono hC1
  have his := (hS.invLocal ls hls).mono hC2
  generalize T.clocks ++ S.clocks ++ [clock] = C at *
  have hmerge : ∀ (a b : LocTree F), T.IsLoc a → S.IsLoc b →
      (Sys.quotient T S i o clock newInput).IsLoc (LocTree.merge a b) :=
    fun a b ha hb => .inl ⟨a, b, ha, hb, rfl⟩
  have hmi : ∀ a b : LocTree F, Local (dim F) C (InvSet (LocTree.merge a b)) :=
    fun a b => invSet_none rfl
  have hupd : UpdatesOk [(⟨clock, 0⟩ : CUpdate)] (dim F) := by
    intro u hu; simp only [List.mem_singleton] at hu; subst hu; exact ⟨h0, hn, le_refl _⟩
  have hown : ∀ u ∈ [(⟨clock, 0⟩ : CUpdate)], u.clock ∈ C := by
    intro u hu; simp only [List.mem_singleton] at hu; subst hu; exact hC3
  have hall : ∀ s ∈ st, Local (dim F) C (den (allowedFed ls s)) :=
    fun s hs => allowedFed_local his (hst s hs).2
  have hallt : ∀ s ∈ tt, Local (dim F) C (den (allowedFed lt s)) :=
    fun s hs => allowedFed_local hit (htt s hs).2
  unfold quotientMoves at ht
  have ht := (List.mem_filter.1 ht).1
  simp only [List.mem_append] at ht
  rcases ht with ((((ht | ht) | ht) | ht) | ht) | ht
  · split at ht
    · obtain ⟨x, hx, ht⟩ := List.mem_flatMap.1 ht
      obtain ⟨y, hy, rfl⟩ := List.mem_map.1 ht
      refine ⟨hmerge _ _ (htt x hx).1 (hst y hy).1, (htt x hx).2.upd.append (hst y hy).2.upd, ?_, ?_,
        hmi _ _⟩
      · intro u hu
        rcases List.mem_append.1 hu with hu | hu
        · exact (htt x hx).2.own u hu
        · exact (hst y hy).2.own u hu
      · simp only [den_inter]; exact (hallt x hx).inter (hall y hy)
    · cases ht
  · split at ht
    · obtain ⟨y, hy, rfl⟩ := List.mem_map.1 ht
      exact ⟨hmerge _ _ hlt (hst y hy).1, (hst y hy).2.upd, (hst y hy).2.own, hall y hy, hmi _ _⟩
    · cases ht
  · split at ht
    · simp only [List.mem_singleton] at ht; subst ht
      refine ⟨.inr (.inl rfl), by simp [UpdatesOk], by simp, ?_, invSet_none rfl⟩
      simp only [den_append]
      exact (inverse_local (applyInvariants_local his univ_local)).union
        (inverse_local (foldl_append_local hall))
    · simp only [List.mem_singleton] at ht; subst ht
      exact ⟨.inr (.inl rfl), by simp [UpdatesOk], by simp,
        inverse_local (applyInvariants_local his univ_local), invSet_none rfl⟩
  · split at ht
    · obtain ⟨y, hy, rfl⟩ := List.mem_map.1 ht
      refine ⟨.inr (.inr rfl), hupd, hown, ?_, errorLoc_local h0 hn hC3⟩
      simp only [den_inter]
      exact (hall y hy).inter (inverse_local (foldl_append_local hallt))
    · cases ht
  · split at ht
    · simp only [List.mem_singleton] at ht; subst ht
      refine ⟨.inr (.inr rfl), hupd, hown, ?_, errorLoc_local h0 hn hC3⟩
      simp only [den_inter]
      exact (inverse_local (invOrUniv_local hit)).inter (invOrUniv_local his)
    · cases ht
  · split at ht
    · obtain ⟨x, hx, rfl⟩ := List.mem_map.1 ht
      exact ⟨hmerge _ _ (htt x hx).1 hls, (htt x hx).2.upd, (htt x hx).2.own,
        applyInvariants_local his (hallt x hx), hmi _ _⟩
    · cases ht

theorem constrainEq_local {C : List Nat} {c : Nat} {k : Int} (h0 : 0 < c) (hn : c < dim F) (hc : c ∈ C) :
    Local (dim F) C (den (constrainEq (univ : F) c k)) := by
  intro v w hv hw ha hm
  rw [den_constrainEq _ _ _ h0 hn, den_univ] at hm ⊢
  exact ⟨hw, by rw [← ha c hc]; exact hm.2⟩

theorem good_quotient {T S x : Sys F} {clock : Nat} (hT : T.Good) (hS : S.Good) (h0 : 0 < clock)
    (hn : clock < dim F) (h : newQuotientUnchecked T S clock = .ok x) : x.Good := by
  obtain ⟨_, rfl⟩ := newQuotient_eq h
  generalize setUnion _ _ = ins
  generalize setUnion _ _ = outs
  generalize freshInput _ _ _ = ni
  have hC3 : clock ∈ T.clocks ++ S.clocks ++ [clock] := by simp
  have hlocI : ∀ y, (Sys.quotient T S ins outs clock ni).IsLoc y →
      Local (dim F) (T.clocks ++ S.clocks ++ [clock]) (InvSet y) := by
    rintro y (⟨a, b, _, _, rfl⟩ | rfl | rfl)
    · exact invSet_none rfl
    · exact invSet_none rfl
    · exact errorLoc_local h0 hn hC3
  constructor
  · intro i hi
    simp only [clocks, List.mem_append, List.mem_singleton] at hi
    rcases hi with (hi | hi) | rfl
    · exact hT.clockDim i hi
    · exact hS.clockDim i hi
    · exact ⟨h0, hn⟩
  · obtain ⟨ol, hol, hl'⟩ := hT.initial
    obtain ⟨or, hor, hr'⟩ := hS.initial
    unfold initialLoc
    rw [hol, hor]
    cases ol with
    | none => exact ⟨none, rfl, by rintro x ⟨⟩⟩
    | some a =>
      cases or with
      | none => exact ⟨none, rfl, by rintro x ⟨⟩⟩
      | some b =>
        refine ⟨_, rfl, ?_⟩
        rintro y ⟨⟩
        exact .inl ⟨a, b, hl' a rfl, hr' b rfl, rfl⟩
  · exact hlocI
  · rintro y a hy ha
    rw [next_quotient ha]
    split
    · split
      · refine ⟨_, rfl, fun t ht => ?_⟩
        simp only [List.mem_singleton] at ht; subst ht
        refine ⟨hy, by simp [UpdatesOk, Transition.withoutId], by simp [Transition.withoutId],
          constrainEq_local h0 hn hC3, hlocI y hy⟩
      · exact ⟨_, rfl, by simp⟩
    · split
      · refine ⟨_, rfl, fun t ht => ?_⟩
        simp only [List.mem_singleton] at ht; subst ht
        exact ⟨hy, goodTrans_withoutId (hlocI y hy)⟩
      · rename_i h1 h2
        rcases hy with ⟨a', b', ha', hb', rfl⟩ | rfl | rfl
        · simp only [LocTree.merge, LocTree.getLeft, LocTree.getRight, ok_bind]
          obtain ⟨tt, h3, h4⟩ := ifAvailable_good hT ha' a
          obtain ⟨st, h5, h6⟩ := ifAvailable_good hS hb' a
          rw [h3, h5]
          exact ⟨_, rfl, quotientMoves_good h0 hn ha' hb' hT hS h4 h6⟩
        · exact absurd rfl h2
        · exact absurd rfl h1
  · rintro y hy
    unfold localBounds
    split
    · exact ⟨_, rfl⟩
    · rename_i hsp
      rcases hy with ⟨a', b', ha', hb', rfl⟩ | rfl | rfl
      · obtain ⟨b1, h1⟩ := hT.bounds a' ha'
        obtain ⟨b2, h2⟩ := hS.bounds b' hb'
        simp only [LocTree.merge, LocTree.getLeft, LocTree.getRight, ok_bind, h1, h2]
        exact ⟨_, rfl⟩
      · exact absurd rfl hsp
      · exact absurd rfl hsp
  · obtain ⟨ls, h1, h2⟩ := hT.all
    obtain ⟨rs, h3, h4⟩ := hS.all
    refine ⟨_, by unfold allLocs; rw [h1, h3]; rfl, fun y => ?_⟩
    simp only [List.mem_append, List.mem_flatMap, List.mem_map, List.mem_cons, List.not_mem_nil,
      or_false, IsLoc]
    constructor
    · rintro (⟨a, ha, b, hb, rfl⟩ | rfl | rfl)
      · exact .inl ⟨a, b, (h2 a).1 ha, (h4 b).1 hb, rfl⟩
      · exact .inr (.inr rfl)
      · exact .inr (.inl rfl)
    · rintro (⟨a, b, ha, hb, rfl⟩ | rfl | rfl)
      · exact .inl ⟨a, (h2 a).2 ha, b, (h4 b).2 hb, rfl⟩
      · exact .inr (.inr rfl)
      · exact .inr (.inl rfl)
  · rintro y z (⟨a, b, ha, hb, rfl⟩ | rfl | rfl) (⟨a', b', ha', hb', rfl⟩ | rfl | rfl) hid
    · simp only [LocTree.merge, LocTree.id, LocId.quotient.injEq] at hid
      rw [hT.unique a a' ha ha' hid.1, hS.unique b b' hb hb' hid.2]
    all_goals first | rfl | (simp [LocTree.merge, LocTree.id, LocTree.universalLoc, LocTree.errorLoc] at hid)

theorem Accepted.good {s : Sys F} (h : s.Accepted) : s.Good := by
  induction h with
  | comp hc ho h => exact good_comp (compileWith_wf hc ho h)
  | composition _ _ h ihl ihr => exact good_composition ihl ihr h
  | conjunction _ _ h ihl ihr => exact good_conjunction ihl ihr h
  | quotient _ _ h0 hn h iht ihs => exact good_quotient iht ihs h0 hn h

end Sys
end Reveaal
