import Verif.Lemmas.Bounds
import Verif.Lemmas.Convex

/-! # The bounds of plain systems are good enough, and then extrapolation is harmless -/

namespace Reveaal
open ZoneLib Arith
variable {F : Type} [ZoneLib F]

theorem Bounds.covers_univ (b : Bounds) : b.Covers (dim F) (den (univ : F)) := by
  intro v w _ hw _ _; rw [den_univ]; exact hw

omit [ZoneLib F] in
theorem not_special {l : LocTree F} {ty : LocType} (h : l.ty = ty) (h1 : ty ≠ .universal)
    (h2 : ty ≠ .inconsistent) : (l.isUniversal || l.isInconsistent) = false := by
  unfold LocTree.isUniversal LocTree.isInconsistent
  rw [h]; simp [h1, h2]

omit [ZoneLib F] in
theorem pushEdge_source {id : LocId} {x : String × Transition F} :
    ∀ {m m' : List (LocId × List (String × Transition F))}, CompComp.pushEdge id x m = .ok m' →
      ∀ q ∈ m', ∀ y ∈ q.2, (y = x ∧ q.1 = id) ∨ ∃ q' ∈ m, q'.1 = q.1 ∧ y ∈ q'.2 := by
  intro m
  induction m with
  | nil => intro m' h; cases h
  | cons p m ih =>
    intro m' h
    obtain ⟨k, es⟩ := p
    unfold CompComp.pushEdge at h
    split at h
    · rename_i hk
      cases h
      intro q hq y hy
      rcases List.mem_cons.1 hq with rfl | hq
      · rcases List.mem_append.1 hy with hy | hy
        · exact .inr ⟨(k, es), by simp, rfl, hy⟩
        · exact .inl ⟨by simpa using hy, hk⟩
      · exact .inr ⟨q, by simp [hq], rfl, hy⟩
    · obtain ⟨m1, h1, h2⟩ := bind_ok h
      cases h2
      intro q hq y hy
      rcases List.mem_cons.1 hq with rfl | hq
      · exact .inr ⟨(k, es), by simp, rfl, hy⟩
      · rcases ih h1 q hq y hy with h | ⟨q', hq', h⟩
        · exact .inl h
        · exact .inr ⟨q', by simp [hq'], h⟩

/-- Every transition stored for a location comes from an edge with that source. -/
theorem buildEdges_source {c : Component} : ∀ {es : List Edge}
    {m m' : List (LocId × List (String × Transition F))}, CompComp.buildEdges c es m = .ok m' →
      ∀ q ∈ m', ∀ y ∈ q.2, (∀ q' ∈ m, q'.2 = []) →
        ∃ e ∈ es, q.1 = .simple e.source ∧ Transition.fromEdge c e = .ok y.2 := by
  have key : ∀ {es : List Edge} {m m' : List (LocId × List (String × Transition F))},
      CompComp.buildEdges c es m = .ok m' → ∀ q ∈ m', ∀ y ∈ q.2,
        (∃ e ∈ es, q.1 = .simple e.source ∧ Transition.fromEdge c e = .ok y.2) ∨
          ∃ q' ∈ m, q'.1 = q.1 ∧ y ∈ q'.2 := by
    intro es
    induction es with
    | nil => intro m m' h; cases h; exact fun q hq y hy => .inr ⟨q, hq, rfl, hy⟩
    | cons e es ih =>
      intro m m' h
      unfold CompComp.buildEdges at h
      obtain ⟨t, h1, h⟩ := bind_ok h
      obtain ⟨m1, h2, h⟩ := bind_ok h
      intro q hq y hy
      rcases ih h q hq y hy with ⟨e', he', h⟩ | ⟨q', hq', hk, hy'⟩
      · exact .inl ⟨e', by simp [he'], h⟩
      · rcases pushEdge_source h2 q' hq' y hy' with ⟨rfl, hk'⟩ | ⟨q'', hq'', hk', hy''⟩
        · exact .inl ⟨e, by simp, hk.symm.trans hk', h1⟩
        · exact .inr ⟨q'', hq'', hk'.trans hk, hy''⟩
  intro es m m' h q hq y hy hm
  rcases key h q hq y hy with h | ⟨q', hq', _, hy'⟩
  · exact h
  · rw [hm q' hq'] at hy'; cases hy'

namespace Sys

theorem boundsCover_comp {order : List (LocId × LocTree F) → List (LocId × LocTree F)} {c : Component}
    {ins outs : List String} {id : Nat} {x : CompComp F} (hc : c.Ok (dim F))
    (ho : ∀ l, (order l).Perm l) (h : CompComp.compileWith order c ins outs id = .ok x)
    (hp : c.Plain) : (Sys.comp x).BoundsCover := by
  have hwf := compileWith_wf hc ho h
  have hgood := good_comp hwf
  unfold CompComp.compileWith at h
  split at h
  · cases h
  obtain ⟨locs0, h1, h⟩ := bind_ok h
  obtain ⟨edges, h2, h⟩ := bind_ok h
  cases h
  obtain ⟨_, b2, _⟩ := buildLocations_spec h1
  have hmem : ∀ p, p ∈ order locs0 ↔ p ∈ locs0 := fun p => (ho locs0).mem_iff
  have hat : ∀ g, c.HasExpr g → c.maxBounds.AtLeast c.decls g := by
    intro g hg p hpc n i k hk
    have hdecl : (n, i) ∈ c.decls.clocks := hk.elim (fun h => h.1.1) (fun h => h.2.1)
    obtain ⟨m, hm, hle⟩ := maxBounds_ge hdecl
    refine ⟨m, hm, ?_⟩
    rw [← getConstant_compares hk]
    exact (getMaxConstant_ge hpc i n).trans ((clockBound_ge hg n i).trans hle)
  have hcov : ∀ g, c.HasExpr g → g.InDim (dim F) → ∀ z : F, applyConstraints c.decls g univ = .ok z →
      c.maxBounds.Covers (dim F) (den z) := by
    intro g hg hdim z hz
    rw [apply_codeSet c.decls hc.decls g univ z hdim hz]
    exact (Bounds.covers_univ _).inter (codeSet_covers (hp.exprs g hg) (hat g hg))
  have hdim : ∀ g : BoolE, (g.ClocksIn fun i => i ∈ c.decls.clocks.map (·.2)) → g.InDim (dim F) := by
    intro g hg
    refine BoolE.ClocksIn.mono ?_ hg
    intro i hi
    obtain ⟨q, hq, rfl⟩ := List.mem_map.1 hi
    exact hc.decls q hq
  -- the invariant of a location
  have hinv : ∀ p ∈ order locs0, ∀ b, (if p.2.isUniversal || p.2.isInconsistent then Bounds.new
      else c.maxBounds) = b → b.Covers (dim F) (InvSet p.2) := by
    rintro p hpm b rfl
    obtain ⟨_, l, hl, hs⟩ := b2 p ((hmem p).1 hpm)
    obtain ⟨inv, hp2, hn, hsm⟩ := simple_spec hs
    cases hli : l.invariant with
    | none =>
      intro v w _ _ _ _ i hi
      rw [hp2, hn hli] at hi; cases hi
    | some g =>
      have hnot : (p.2.isUniversal || p.2.isInconsistent) = false := by
        refine not_special (ty := l.ty) (by rw [hp2]; rfl) (fun ht => ?_) (fun ht => ?_)
        · have := (hp.special l hl (.inl ht)).1; rw [hli] at this; cases this
        · have := (hp.special l hl (.inr ht)).1; rw [hli] at this; cases this
      rw [hnot]
      obtain ⟨z, hz, rfl⟩ := hsm g hli
      have := hcov g (.inr ⟨l, hl, hli⟩) (hdim g (hc.invs l hl g hli)) z hz
      intro v w hv hw he hm i hi
      rw [hp2] at hm hi
      cases hi
      exact this v w hv hw he (hm z rfl)
  -- the moves of a location
  have hmoves : ∀ p ∈ order locs0, ∀ a trans,
      (Sys.comp ⟨c.name, id, c.decls, c.maxBounds, ins, outs, order locs0, edges,
        ((order locs0).map (·.2)).find? fun l => l.isInitial⟩ : Sys F).next p.2 a = .ok trans →
      ∀ t ∈ trans, t = Transition.withoutId p.2 ∨
        ((p.2.isUniversal || p.2.isInconsistent) = false ∧ c.maxBounds.Covers (dim F) (den t.guard)) := by
    intro p hpm a trans hn t ht
    have hn : CompComp.next _ p.2 a = .ok trans := hn
    unfold CompComp.next at hn
    split at hn
    · cases hn
    split at hn
    · cases hn; exact .inl (List.mem_singleton.1 ht)
    rename_i hnu
    split at hn
    · cases hn; exact .inl (List.mem_singleton.1 ht)
    split at hn
    · cases hn
    · rename_i es hes
      cases hn
      obtain ⟨y, hy, rfl⟩ := List.mem_map.1 ht
      have hy := (List.mem_filter.1 hy).1
      have hq : (p.2.id, es) ∈ edges := by
        clear hy ht
        dsimp only at hes
        generalize edges = m at hes
        induction m with
        | nil => cases hes
        | cons q m ih =>
          obtain ⟨k, v⟩ := q
          rw [List.lookup_cons] at hes
          split at hes
          · rename_i hk
            cases hes
            rw [beq_iff_eq] at hk
            rw [hk]; simp
          · exact List.mem_cons_of_mem _ (ih hes)
      right
      obtain ⟨e, he, hsrc, hte⟩ := buildEdges_source h2 _ hq y hy (by
        intro q hq; obtain ⟨r, _, rfl⟩ := List.mem_map.1 hq; rfl)
      obtain ⟨_, l, hl, hs⟩ := b2 p ((hmem p).1 hpm)
      obtain ⟨inv, hp2, hn, hsm⟩ := simple_spec hs
      constructor
      · rw [hp2] at hsrc
        have hsrc : e.source = l.id := by simpa [LocTree.id] using hsrc.symm
        exact not_special (ty := l.ty) (by rw [hp2]; rfl) (fun ht' => (hp.special l hl (.inl ht')).2 e he hsrc)
          (fun ht' => (hp.special l hl (.inr ht')).2 e he hsrc)
      · obtain ⟨_, _, _, _, hg1, hg2⟩ := fromEdge_spec hte
        cases hge : e.guard with
        | none => rw [hg1 hge]; exact Bounds.covers_univ _
        | some g =>
          exact hcov g (.inl ⟨e, he, hge⟩) (hdim g (hc.guards e he g hge)) _ (hg2 g hge)
  constructor
  · rintro _ b ⟨p, hpm, rfl⟩ hb
    exact hinv p hpm b (Except.ok.inj hb)
  · rintro _ b a trans t ⟨p, hpm, rfl⟩ hb _ hn ht
    rcases hmoves p hpm a trans hn t ht with rfl | ⟨hnot, hcv⟩
    · exact Bounds.covers_univ _
    · have hb : (if p.2.isUniversal || p.2.isInconsistent then Bounds.new else c.maxBounds) = b :=
        Except.ok.inj hb
      rw [hnot] at hb
      rw [← hb]; exact hcv
  · rintro _ b a trans t b' ⟨p, hpm, rfl⟩ hb _ hn ht hb'
    have hb : (if p.2.isUniversal || p.2.isInconsistent then Bounds.new else c.maxBounds) = b :=
      Except.ok.inj hb
    have hb' : (if t.target.isUniversal || t.target.isInconsistent then Bounds.new else c.maxBounds) = b' :=
      Except.ok.inj hb'
    rcases hmoves p hpm a trans hn t ht with rfl | ⟨hnot, _⟩
    · rw [show (Transition.withoutId p.2).target = p.2 from rfl, hb] at hb'
      rw [hb']; exact .refl _
    · rw [hnot] at hb
      rw [← hb, ← hb']
      cases t.target.isUniversal || t.target.isInconsistent with
      | true => intro i m hm; cases hm
      | false => exact .refl _

theorem boundsCover_prod {s l r : Sys F} {k : CompType} (hl : l.Good) (hr : r.Good) (hp : s.IsProd l r k)
    (hloc : ∀ x a b, LocTree.compose a b k = .ok x → s.localBounds x = (do
      let bl ← l.localBounds a
      let br ← r.localBounds b
      .ok (Bounds.add bl br)))
    (cl : l.BoundsCover) (cr : r.BoundsCover) : s.BoundsCover := by
  have parts : ∀ {x a b bd}, LocTree.compose a b k = .ok x → s.localBounds x = .ok bd →
      ∃ bl br, l.localBounds a = .ok bl ∧ r.localBounds b = .ok br ∧ bd = Bounds.add bl br := by
    intro x a b bd hx hb
    rw [hloc x a b hx] at hb
    obtain ⟨bl, h1, hb⟩ := bind_ok hb
    obtain ⟨br, h2, hb⟩ := bind_ok hb
    cases hb
    exact ⟨bl, br, h1, h2, rfl⟩
  have side : ∀ {q : Sys F}, q.Good → q.BoundsCover → ∀ {x b a trans t}, q.IsLoc x → q.localBounds x = .ok b →
      q.sideMoves x a = .ok trans → t ∈ trans → b.Covers (dim F) (den t.guard) ∧ q.IsLoc t.target ∧
        ∀ b', q.localBounds t.target = .ok b' → b.Weaker b' := by
    intro q hq cq x b a trans t hx hb hm ht
    obtain ⟨ts, h1, h2⟩ := sideMoves_good hq hx a
    rw [h1] at hm; cases hm
    have hloc := (h2 t ht).1
    unfold sideMoves at h1
    split at h1
    · rename_i ha
      exact ⟨cq.guard hx hb ha h1 ht, hloc, fun b' hb' => cq.next hx hb ha h1 ht hb'⟩
    · cases h1
      rw [List.mem_singleton] at ht; subst ht
      refine ⟨Bounds.covers_univ _, hloc, fun b' hb' => ?_⟩
      rw [show (Transition.withoutId x).target = x from rfl, hb] at hb'
      cases hb'; exact .refl _
  -- a joint move
  have joint : ∀ {x bd a trans t}, s.IsLoc x → s.localBounds x = .ok bd → s.hasAction a = true →
      s.next x a = .ok trans → t ∈ trans → ∃ xl xr bl br tl tr trl trr, l.IsLoc xl ∧ r.IsLoc xr ∧
        l.localBounds xl = .ok bl ∧ r.localBounds xr = .ok br ∧ bd = Bounds.add bl br ∧
        l.sideMoves xl a = .ok trl ∧ r.sideMoves xr a = .ok trr ∧ tl ∈ trl ∧ tr ∈ trr ∧
        Transition.combine tl tr k = .ok t := by
    intro x bd a trans t hx hb ha hn ht
    obtain ⟨xl, xr, hxl, hxr, hx⟩ := (hp.locs x).1 hx
    obtain ⟨bl, br, h1, h2, rfl⟩ := parts hx hb
    rw [hp.moves x xl xr a ha hx] at hn
    obtain ⟨trl, h3, hn⟩ := bind_ok hn
    obtain ⟨trr, h4, hn⟩ := bind_ok hn
    obtain ⟨ts, h5, h6, _⟩ := combinations_ok (ls := trl) (rs := trr) hp.kind
    rw [h5] at hn; cases hn
    obtain ⟨tl, htl, tr, htr, hc⟩ := h6 t ht
    exact ⟨xl, xr, bl, br, tl, tr, trl, trr, hxl, hxr, h1, h2, rfl, h3, h4, htl, htr, hc⟩
  constructor
  · intro x bd hx hb v w hv hw he hm
    obtain ⟨a, b, ha, hbb, hx⟩ := (hp.locs x).1 hx
    obtain ⟨bl, br, h1, h2, rfl⟩ := parts hx hb
    rw [mem_compose_inv hx] at hm ⊢
    exact ⟨cl.inv ha h1 v w hv hw ((Bounds.weaker_add_left _ _).equiv he) hm.1,
      cr.inv hbb h2 v w hv hw ((Bounds.weaker_add_right _ _).equiv he) hm.2⟩
  · intro x bd a trans t hx hb ha hn ht
    obtain ⟨xl, xr, bl, br, tl, tr, trl, trr, hxl, hxr, h1, h2, rfl, h3, h4, htl, htr, hc⟩ :=
      joint hx hb ha hn ht
    obtain ⟨i, y, _, h'⟩ := combine_ok (l := tl) (r := tr) hp.kind
    rw [h'] at hc; cases hc
    rw [den_inter]
    exact ((side hl cl hxl h1 h3 htl).1.mono (Bounds.weaker_add_left _ _)).inter
      ((side hr cr hxr h2 h4 htr).1.mono (Bounds.weaker_add_right _ _))
  · intro x bd a trans t b' hx hb ha hn ht hb'
    obtain ⟨xl, xr, bl, br, tl, tr, trl, trr, hxl, hxr, h1, h2, rfl, h3, h4, htl, htr, hc⟩ :=
      joint hx hb ha hn ht
    obtain ⟨bl', br', h5, h6, rfl⟩ := parts (combine_target hp.kind hc) hb'
    exact ((side hl cl hxl h1 h3 htl).2.2 bl' h5).add ((side hr cr hxr h2 h4 htr).2.2 br' h6)

theorem boundsCover_composition {l r s : Sys F} (hl : l.Good) (hr : r.Good) (cl : l.BoundsCover)
    (cr : r.BoundsCover) (h : newComposition l r = .ok s) : s.BoundsCover := by
  refine boundsCover_prod hl hr (isProd_composition h) ?_ cl cr
  intro x a b hx
  obtain ⟨_, rfl⟩ := newComposition_eq h
  rw [localBounds, (compose_parts hx).1, (compose_parts hx).2.1]; rfl

theorem boundsCover_conjunction {l r s : Sys F} (hl : l.Good) (hr : r.Good) (cl : l.BoundsCover)
    (cr : r.BoundsCover) (h : newConjunctionUnchecked l r = .ok s) : s.BoundsCover := by
  refine boundsCover_prod hl hr (isProd_conjunction h) ?_ cl cr
  intro x a b hx
  obtain ⟨_, _, rfl⟩ := newConjunction_eq h
  rw [localBounds, (compose_parts hx).1, (compose_parts hx).2.1]; rfl

end Sys

/-! ## Indistinguishable states have the same moves -/

theorem Bounds.Equiv.delay {b : Bounds} {n : Nat} {v w : Val} (h : b.Equiv v w) {d : ℝ} (hd : 0 ≤ d) :
    b.Equiv (Reveaal.delay n v d) (Reveaal.delay n w d) := by
  intro i
  unfold Reveaal.delay
  by_cases hi : 0 < i ∧ i < n
  · simp only [hi, and_self, if_true]
    refine (h i).imp (fun h => by rw [h]) fun h m hm => ?_
    obtain ⟨h1, h2⟩ := h m hm
    exact ⟨by linarith, by linarith⟩
  · simp only [hi, if_false]
    exact h i

theorem Bounds.Equiv.run {b : Bounds} : ∀ {us : List CUpdate} {v w : Val}, b.Equiv v w →
    b.Equiv (runUpdates us v) (runUpdates us w) := by
  intro us
  induction us with
  | nil => intro v w h; exact h
  | cons u us ih =>
    intro v w h
    refine ih fun i => ?_
    by_cases hi : i = u.clock
    · subst hi; left; simp
    · rw [assign_other _ _ hi, assign_other _ _ hi]; exact h i

namespace Sys

/-- Indistinguishable valuations let the same time pass. -/
theorem BoundsCover.canDelay {s : Sys F} (hc : s.BoundsCover) {l : LocTree F} {b : Bounds} (hl : s.IsLoc l)
    (hb : s.localBounds l = .ok b) {v w : Val} (hv : Valid (dim F) v) (hw : Valid (dim F) w)
    (he : b.Equiv v w) {d : ℝ} (h : TS.CanDelay l v d) : TS.CanDelay l w d :=
  ⟨h.1, fun d' h1 h2 => hc.inv hl hb _ _ (delay_valid hv h1) (delay_valid hw h1) (he.delay h1) (h.2 d' h1 h2)⟩

/-- Indistinguishable valuations can take the same transitions, to indistinguishable valuations. -/
theorem BoundsCover.act {s : Sys F} (hs : s.Good) (hc : s.BoundsCover) {l : LocTree F} {b : Bounds}
    (hl : s.IsLoc l) (hb : s.localBounds l = .ok b) {v w : Val} (hv : Valid (dim F) v)
    (hw : Valid (dim F) w) (he : b.Equiv v w) {a : String} {l' : LocTree F} {v' : Val}
    (h : s.ts.Act l v a l' v') : s.IsLoc l' ∧ ∃ b' w', s.localBounds l' = .ok b' ∧ s.ts.Act l w a l' w' ∧
      b'.Equiv v' w' := by
  obtain ⟨ha, trans, hn, t, ht, htake, rfl, rfl⟩ := h
  obtain ⟨htl, hg⟩ := hs.next_ok hl ha hn t ht
  obtain ⟨b', hb'⟩ := hs.bounds _ htl
  have ha' : s.hasAction a = true := ha
  have he' : b'.Equiv (runUpdates t.updates v) (runUpdates t.updates w) :=
    ((hc.next hl hb ha' hn ht hb').equiv he).run
  refine ⟨htl, b', runUpdates t.updates w, hb', ⟨ha, trans, hn, t, ht, ⟨?_, ?_⟩, rfl, rfl⟩, he'⟩
  · exact hc.guard hl hb ha' hn ht v w hv hw he htake.1
  · exact hc.inv htl hb' _ _ (hg.run_valid hv) (hg.run_valid hw) he' htake.2

end Sys
end Reveaal
