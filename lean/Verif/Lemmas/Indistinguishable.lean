import Verif.Spec.Reduction
import Verif.Spec.Refinement
import Verif.Spec.Consistency
import Verif.Props.C54

/-!
# What systems that cannot be told apart have in common
-/

namespace Reveaal
open ZoneLib
variable {F G : Type} [ZoneLib F] [ZoneLib G]

theorem TS.BisimUpTo.symm {A : TS F} {B : TS G} {V : Val → Val → Prop} {R : LocTree F → LocTree G → Prop}
    (h : A.BisimUpTo B V R) : B.BisimUpTo A (fun w v => V v w) fun m l => R l m :=
  ⟨h.zero, fun w v d hv => h.delay v w d hv, fun m l hlm w v hw hv ha => (h.inv l m hlm v w hv hw ha).symm,
    fun m l hlm w v a m' w' hw hv ha hact => h.right l m hlm v w a m' w' hv hw ha hact,
    fun m l hlm w v a l' v' hw hv ha hact => h.left l m hlm v w a l' v' hv hw ha hact⟩

theorem TS.Indistinguishable.symm {A : TS F} {B : TS G} {V : Val → Val → Prop} (h : A.Indistinguishable B V) :
    B.Indistinguishable A fun w v => V v w := by
  obtain ⟨R, h1, h2, h3⟩ := h.related
  refine ⟨h.inputs.symm, h.outputs.symm, fun m l => R l m, h1.symm, ?_, fun m l hlm => ?_⟩
  · rcases h2 with ⟨a, b⟩ | ⟨l, m, a, b, c⟩
    · exact .inl ⟨b, a⟩
    · exact .inr ⟨m, l, b, a, c⟩
  · obtain ⟨a, b, c⟩ := h3 l m hlm
    exact ⟨a.symm, b.symm, fun w v hw hv hvw => (c v w hv hw hvw).symm⟩

theorem TS.BisimUpTo.canDelay {A : TS F} {B : TS G} {V : Val → Val → Prop} {R : LocTree F → LocTree G → Prop}
    (h : A.BisimUpTo B V R) {l : LocTree F} {m : LocTree G} (hlm : R l m) {v w : Val} (hv : Valid (dim F) v)
    (hw : Valid (dim G) w) (ha : V v w) {d : ℝ} (hd : TS.CanDelay l v d) : TS.CanDelay m w d :=
  ⟨hd.1, fun d' p q => (h.inv _ _ hlm _ _ (delay_valid hv p) (delay_valid hw p) (h.delay _ _ d' ha)).1 (hd.2 d' p q)⟩

section
variable {s t : Sys F} {s' t' : Sys G} {V W : Val → Val → Prop}

theorem TS.Indistinguishable.reach (hs : s.Good) (hs' : s'.Good) (h : s.ts.Indistinguishable s'.ts V) {l : LocTree F}
    {v : Val} (hr : s.ts.Reach l v) : ∃ m w, s'.ts.Reach m w ∧ V v w ∧ m.id = l.id ∧ m.ty = l.ty ∧
      (s.ts.DetAt l v ↔ s'.ts.DetAt m w) := by
  obtain ⟨R, h1, h2, h3⟩ := h.related
  obtain ⟨m, w, h4, h5, h6⟩ := h1.reach hs hs' (fun l hl => by
    rcases h2 with ⟨a, _⟩ | ⟨l', m, a, b, c⟩
    · rw [a] at hl; cases hl
    · rw [a] at hl; cases hl; exact ⟨m, b, c⟩) hr
  obtain ⟨a, b, c⟩ := h3 l m h5
  exact ⟨m, w, h4, h6, a, b, c v w (good_reach hs hr).2 (good_reach hs' h4).2 h6⟩

theorem TS.Indistinguishable.deterministic_of (hs : s.Good) (hs' : s'.Good) (h : s.ts.Indistinguishable s'.ts V)
    (hd : s'.ts.Deterministic) : s.ts.Deterministic := by
  intro l v hr
  obtain ⟨m, w, h1, _, _, _, h2⟩ := h.reach hs hs' hr
  exact h2.2 (hd m w h1)

theorem TS.Indistinguishable.deterministic (hs : s.Good) (hs' : s'.Good) (h : s.ts.Indistinguishable s'.ts V) :
    s.ts.Deterministic ↔ s'.ts.Deterministic :=
  ⟨h.symm.deterministic_of hs' hs, h.deterministic_of hs hs'⟩

theorem isInconsistent_eq {l : LocTree F} {m : LocTree G} (hi : m.id = l.id) (ht : m.ty = l.ty) :
    m.isInconsistent = l.isInconsistent := by
  unfold LocTree.isInconsistent
  simp only [hi, ht]

theorem TS.Indistinguishable.consistent_of (hs : s.Good) (hs' : s'.Good) (h : s.ts.Indistinguishable s'.ts V)
    (hc : s.ts.Consistent) : s'.ts.Consistent := by
  obtain ⟨R, h1, h2, h3⟩ := h.related
  obtain ⟨l, hl, hz, C, hC, h0⟩ := hc
  rcases h2 with ⟨a, _⟩ | ⟨l', m, a, b, c⟩
  · rw [a] at hl; cases hl
  rw [a] at hl; cases hl
  have hz' : zeroVal ∈ InvSet m := (h1.inv _ _ c _ _ Sys.zeroVal_valid Sys.zeroVal_valid h1.zero).1 hz
  refine ⟨m, b, hz', fun m w => ∃ l v, C l v ∧ R l m ∧ V v w ∧ s.ts.Reach l v ∧ s'.ts.Reach m w, ⟨?_, ?_, ?_, ?_⟩,
    l, zeroVal, h0, c, h1.zero, .init a hz, .init b hz'⟩
  · rintro m w ⟨l, v, hc, hlm, _⟩
    obtain ⟨h4, h5, _⟩ := h3 l m hlm
    rw [isInconsistent_eq h4 h5]
    exact hC.safe hc
  · rintro m w d ⟨l, v, hc, hlm, hV, hr, hr'⟩ hd
    have hd0 := h1.symm.canDelay hlm (good_reach hs' hr').2 (good_reach hs hr).2 hV hd
    exact ⟨l, _, hC.delay hc hd0, hlm, h1.delay _ _ d hV, .delay hr hd0, .delay hr' hd⟩
  · rintro m w i m' w' ⟨l, v, hc, hlm, hV, hr, hr'⟩ hi hact
    obtain ⟨l', v', h4, h5, h6⟩ := h1.right _ _ hlm _ _ _ _ _ (good_reach hs hr).2 (good_reach hs' hr').2 hV hact
    exact ⟨l', v', hC.input hc (by rw [← h.inputs]; exact hi) h4, h5, h6, .act hr h4, .act hr' hact⟩
  · rintro m w ⟨l, v, hc, hlm, hV, hr, hr'⟩
    have hv := (good_reach hs hr).2
    have hw := (good_reach hs' hr').2
    rcases hC.progress hc with hp | ⟨d, hd, o, ho, l', v', hact, hc'⟩
    · exact .inl fun d hd => h1.canDelay hlm hv hw hV (hp d hd)
    · have hd' := h1.canDelay hlm hv hw hV hd
      obtain ⟨m', w', h4, h5, h6⟩ := h1.left _ _ hlm _ _ _ _ _ (delay_valid hv hd.1) (delay_valid hw hd.1)
        (h1.delay _ _ d hV) hact
      exact .inr ⟨d, hd', o, by rw [h.outputs]; exact ho, m', w', h4, l', v', hc', h5, h6, .act (.delay hr hd) hact,
        .act (.delay hr' hd') h4⟩

theorem TS.Indistinguishable.consistent (hs : s.Good) (hs' : s'.Good) (h : s.ts.Indistinguishable s'.ts V) :
    s.ts.Consistent ↔ s'.ts.Consistent :=
  ⟨h.consistent_of hs hs', h.symm.consistent_of hs' hs⟩

theorem TS.Indistinguishable.refines_of (hs : s.Good) (hs' : s'.Good) (ht : t.Good) (ht' : t'.Good)
    (h : s.ts.Indistinguishable s'.ts V) (k : t.ts.Indistinguishable t'.ts W) (hr : Refines s.ts t.ts) :
    Refines s'.ts t'.ts := by
  obtain ⟨R, h1, h2, _⟩ := h.related
  obtain ⟨Q, k1, k2, _⟩ := k.related
  refine ⟨⟨?_, ?_, ?_, ?_⟩, ?_⟩
  · rw [h.inputs, k.outputs]; exact hr.alphabets.inOut
  · rw [h.outputs, k.inputs]; exact hr.alphabets.outIn
  · rw [h.inputs, k.inputs]; exact hr.alphabets.inputs
  · rw [h.outputs, k.outputs]; exact hr.alphabets.outputs
  · rcases hr.states with ⟨a, b⟩ | ⟨l, m, a, b, c⟩
    · refine .inl ⟨?_, ?_⟩
      · rcases h2 with ⟨_, x⟩ | ⟨l', m', x, _⟩
        · exact x
        · rw [a] at x; cases x
      · rcases k2 with ⟨_, x⟩ | ⟨l', m', x, _⟩
        · exact x
        · rw [b] at x; cases x
    · rcases h2 with ⟨x, _⟩ | ⟨_, l', x, hl', hll⟩
      · rw [a] at x; cases x
      rw [a] at x; cases x
      rcases k2 with ⟨x, _⟩ | ⟨_, m', x, hm', hmm⟩
      · rw [b] at x; cases x
      rw [b] at x; cases x
      refine .inr ⟨l', m', hl', hm', fun hz' => ?_⟩
      have hz : zeroVal ∈ InvSet l := (h1.inv _ _ hll _ _ Sys.zeroVal_valid Sys.zeroVal_valid h1.zero).2 hz'
      obtain ⟨P, hP, h0⟩ := c hz
      have hzm : zeroVal ∈ InvSet m := by
        have := (hP.delay (d := 0) h0 ⟨le_refl 0, fun d' p q => by
          rw [le_antisymm q p, delay_zero]; exact hz⟩).1.2 0 (le_refl 0) (le_refl 0)
        rwa [delay_zero] at this
      have hzm' : zeroVal ∈ InvSet m' := (k1.inv _ _ hmm _ _ Sys.zeroVal_valid Sys.zeroVal_valid k1.zero).1 hzm
      refine ⟨fun l' v' m' w' => ∃ l v m w, P l v m w ∧ R l l' ∧ V v v' ∧ Q m m' ∧ W w w' ∧ s.ts.Reach l v ∧
        s'.ts.Reach l' v' ∧ t.ts.Reach m w ∧ t'.ts.Reach m' w', ⟨?_, ?_, ?_⟩, l, zeroVal, m, zeroVal, h0, hll, h1.zero,
        hmm, k1.zero, .init a hz, .init hl' hz', .init b hzm, .init hm' hzm'⟩
      · rintro l' v' m' w' o l1' v1' ⟨l, v, m, w, hp, hR, hV, hQ, hW, r1, r2, r3, r4⟩ ho hact
        obtain ⟨l1, v1, h4, h5, h6⟩ := h1.right _ _ hR _ _ _ _ _ (good_reach hs r1).2 (good_reach hs' r2).2 hV hact
        rw [h.outputs] at ho
        obtain ⟨h7, h8⟩ := hP.output hp ho h4
        rw [k.outputs]
        refine ⟨fun hto => ?_, fun hto => ⟨l1, v1, m, w, h8 hto, h5, h6, hQ, hW, .act r1 h4, .act r2 hact, r3, r4⟩⟩
        obtain ⟨m1, w1, h9, h10⟩ := h7 hto
        obtain ⟨m1', w1', h11, h12, h13⟩ := k1.left _ _ hQ _ _ _ _ _ (good_reach ht r3).2 (good_reach ht' r4).2 hW h9
        exact ⟨m1', w1', h11, l1, v1, m1, w1, h10, h5, h6, h12, h13, .act r1 h4, .act r2 hact, .act r3 h9, .act r4 h11⟩
      · rintro l' v' m' w' i m1' w1' ⟨l, v, m, w, hp, hR, hV, hQ, hW, r1, r2, r3, r4⟩ hi hact
        obtain ⟨m1, w1, h4, h5, h6⟩ := k1.right _ _ hQ _ _ _ _ _ (good_reach ht r3).2 (good_reach ht' r4).2 hW hact
        rw [k.inputs] at hi
        obtain ⟨h7, h8⟩ := hP.input hp hi h4
        rw [h.inputs]
        refine ⟨fun hto => ?_, fun hto => ⟨l, v, m1, w1, h8 hto, hR, hV, h5, h6, r1, r2, .act r3 h4, .act r4 hact⟩⟩
        obtain ⟨l1, v1, h9, h10⟩ := h7 hto
        obtain ⟨l1', v1', h11, h12, h13⟩ := h1.left _ _ hR _ _ _ _ _ (good_reach hs r1).2 (good_reach hs' r2).2 hV h9
        exact ⟨l1', v1', h11, l1, v1, m1, w1, h10, h12, h13, h5, h6, .act r1 h9, .act r2 h11, .act r3 h4, .act r4 hact⟩
      · rintro l' v' m' w' d ⟨l, v, m, w, hp, hR, hV, hQ, hW, r1, r2, r3, r4⟩ hd
        have hd0 := h1.symm.canDelay hR (good_reach hs' r2).2 (good_reach hs r1).2 hV hd
        obtain ⟨h4, h5⟩ := hP.delay hp hd0
        have hd' := k1.canDelay hQ (good_reach ht r3).2 (good_reach ht' r4).2 hW h4
        exact ⟨hd', l, _, m, _, h5, hR, h1.delay _ _ d hV, hQ, k1.delay _ _ d hW, .delay r1 hd0, .delay r2 hd, .delay r3 h4,
          .delay r4 hd'⟩

theorem TS.Indistinguishable.refines (hs : s.Good) (hs' : s'.Good) (ht : t.Good) (ht' : t'.Good)
    (h : s.ts.Indistinguishable s'.ts V) (k : t.ts.Indistinguishable t'.ts W) :
    Refines s.ts t.ts ↔ Refines s'.ts t'.ts :=
  ⟨h.refines_of hs hs' ht ht' k, h.symm.refines_of hs' hs ht' ht k.symm⟩

end

end Reveaal
