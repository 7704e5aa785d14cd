import Verif.Spec.Algebra
import Verif.Lemmas.Join
import Verif.Examples
import Verif.Props.C64
import Mathlib.Tactic.Ring

/-!
# C79: The order and the grouping of the operands of a composition or conjunction do not matter
-/

namespace Reveaal
open ZoneLib
variable {F : Type} [ZoneLib F]

namespace TS

theorem Corresponds.symm {A B : TS F} {R : LocTree F → LocTree F → Prop} (h : A.Corresponds B R) :
    B.Corresponds A fun m l => R l m where
  inv := fun hr v => (h.inv hr v).symm
  ty := fun hr => (h.ty hr).symm
  left := fun hr ha => h.right hr ha
  right := fun hr ha => h.left hr ha
  det := fun hr v => (h.det hr v).symm

theorem Same.symm {A B : TS F} (h : A.Same B) : B.Same A where
  inputs := fun a => (h.inputs a).symm
  outputs := fun a => (h.outputs a).symm
  states := by
    obtain ⟨R, hR, h⟩ := h.states
    refine ⟨_, hR.symm, ?_⟩
    rcases h with ⟨h1, h2⟩ | ⟨l, m, h1, h2, h3⟩
    · exact .inl ⟨h2, h1⟩
    · exact .inr ⟨m, l, h2, h1, h3⟩

theorem Corresponds.canDelay {A B : TS F} {R : LocTree F → LocTree F → Prop} (h : A.Corresponds B R)
    {l m : LocTree F} (hr : R l m) {v : Val} {d : ℝ} : TS.CanDelay l v d ↔ TS.CanDelay m v d := by
  unfold TS.CanDelay
  simp only [h.inv hr]

end TS

/-- A relation that is kept can be seen through a correspondence on the left. -/
theorem IsRefinement.same_left {A B U : TS F} {R : LocTree F → LocTree F → Prop} (h : A.Corresponds B R)
    (hi : ∀ a, a ∈ A.inputs ↔ a ∈ B.inputs) (ho : ∀ a, a ∈ A.outputs ↔ a ∈ B.outputs)
    {Q : LocTree F → Val → LocTree F → Val → Prop} (hQ : IsRefinement A U Q) :
    IsRefinement B U fun m v n w => ∃ l, R l m ∧ Q l v n w where
  output := by
    rintro m v n w o m' v' ⟨l, hr, hq⟩ hm ha
    obtain ⟨l', ha', hr'⟩ := h.right hr ha
    obtain ⟨h1, h2⟩ := hQ.output hq ((ho o).2 hm) ha'
    refine ⟨fun hu => ?_, fun hu => ⟨l', hr', h2 hu⟩⟩
    obtain ⟨n', w', h3, h4⟩ := h1 hu
    exact ⟨n', w', h3, l', hr', h4⟩
  input := by
    rintro m v n w i n' w' ⟨l, hr, hq⟩ hm ha
    obtain ⟨h1, h2⟩ := hQ.input hq hm ha
    refine ⟨fun hu => ?_, fun hu => ⟨l, hr, h2 fun hA => hu ((hi i).1 hA)⟩⟩
    obtain ⟨l', v', h3, h4⟩ := h1 ((hi i).2 hu)
    obtain ⟨m', h5, h6⟩ := h.left hr h3
    exact ⟨m', v', h5, l', h6, h4⟩
  delay := by
    rintro m v n w d ⟨l, hr, hq⟩ hd
    obtain ⟨h1, h2⟩ := hQ.delay hq ((h.canDelay hr).2 hd)
    exact ⟨h1, l, hr, h2⟩

/-- A relation that is kept can be seen through a correspondence on the right. -/
theorem IsRefinement.same_right {A B U : TS F} {R : LocTree F → LocTree F → Prop} (h : A.Corresponds B R)
    (hi : ∀ a, a ∈ A.inputs ↔ a ∈ B.inputs) (ho : ∀ a, a ∈ A.outputs ↔ a ∈ B.outputs)
    {Q : LocTree F → Val → LocTree F → Val → Prop} (hQ : IsRefinement U A Q) :
    IsRefinement U B fun n w m v => ∃ l, R l m ∧ Q n w l v where
  output := by
    rintro n w m v o n' w' ⟨l, hr, hq⟩ hm ha
    obtain ⟨h1, h2⟩ := hQ.output hq hm ha
    refine ⟨fun hu => ?_, fun hu => ⟨l, hr, h2 fun hA => hu ((ho o).1 hA)⟩⟩
    obtain ⟨l', v', h3, h4⟩ := h1 ((ho o).2 hu)
    obtain ⟨m', h5, h6⟩ := h.left hr h3
    exact ⟨m', v', h5, l', h6, h4⟩
  input := by
    rintro n w m v i m' v' ⟨l, hr, hq⟩ hm ha
    obtain ⟨l', ha', hr'⟩ := h.right hr ha
    obtain ⟨h1, h2⟩ := hQ.input hq ((hi i).2 hm) ha'
    refine ⟨fun hu => ?_, fun hu => ⟨l', hr', h2 hu⟩⟩
    obtain ⟨n', w', h3, h4⟩ := h1 hu
    exact ⟨n', w', h3, l', hr', h4⟩
  delay := by
    rintro n w m v d ⟨l, hr, hq⟩ hd
    obtain ⟨h1, h2⟩ := hQ.delay hq hd
    exact ⟨(h.canDelay hr).1 h1, l, hr, h2⟩

theorem TS.Same.refines_left {A B U : TS F} (h : A.Same B) (hu : Refines A U) : Refines B U := by
  obtain ⟨R, hR, hs⟩ := h.states
  refine ⟨⟨fun a ha => hu.alphabets.inOut a ((h.inputs a).2 ha), fun a ha => hu.alphabets.outIn a ((h.outputs a).2 ha),
    fun a ha => hu.alphabets.inputs a ((h.inputs a).2 ha), fun a ha => (h.outputs a).1 (hu.alphabets.outputs a ha)⟩, ?_⟩
  rcases hu.states with ⟨h1, h2⟩ | ⟨l, n, h1, h2, h3⟩
  · rcases hs with ⟨_, g⟩ | ⟨l, m, g, _⟩
    · exact .inl ⟨g, h2⟩
    · rw [h1] at g; cases g
  · rcases hs with ⟨g, _⟩ | ⟨l', m, g, gm, hr⟩
    · rw [h1] at g; cases g
    · rw [h1] at g; cases g
      refine .inr ⟨m, n, gm, h2, fun hz => ?_⟩
      obtain ⟨Q, hQ, hq⟩ := h3 ((hR.inv hr _).2 hz)
      exact ⟨_, hQ.same_left hR h.inputs h.outputs, l, hr, hq⟩

theorem TS.Same.refines_right {A B U : TS F} (h : A.Same B) (hu : Refines U A) : Refines U B := by
  obtain ⟨R, hR, hs⟩ := h.states
  refine ⟨⟨fun a ha hb => hu.alphabets.inOut a ha ((h.outputs a).2 hb),
    fun a ha hb => hu.alphabets.outIn a ha ((h.inputs a).2 hb),
    fun a ha => (h.inputs a).1 (hu.alphabets.inputs a ha), fun a ha => hu.alphabets.outputs a ((h.outputs a).2 ha)⟩, ?_⟩
  rcases hu.states with ⟨h1, h2⟩ | ⟨n, l, h1, h2, h3⟩
  · rcases hs with ⟨_, g⟩ | ⟨l, m, g, _⟩
    · exact .inl ⟨h1, g⟩
    · rw [h2] at g; cases g
  · rcases hs with ⟨g, _⟩ | ⟨l', m, g, gm, hr⟩
    · rw [h2] at g; cases g
    · rw [h2] at g; cases g
      refine .inr ⟨n, m, h1, gm, fun hz => ?_⟩
      obtain ⟨Q, hQ, hq⟩ := h3 hz
      exact ⟨_, hQ.same_right hR h.inputs h.outputs, l, hr, hq⟩

theorem TS.Same.consistent {A B : TS F} (h : A.Same B) (hc : A.Consistent) : B.Consistent := by
  obtain ⟨R, hR, hs⟩ := h.states
  obtain ⟨l, h1, h2, C, hC, h3⟩ := hc
  rcases hs with ⟨g, _⟩ | ⟨l', m, g, gm, hr⟩
  · rw [h1] at g; cases g
  · rw [h1] at g; cases g
    refine ⟨m, gm, (hR.inv hr _).1 h2, fun m v => ∃ l, R l m ∧ C l v, ⟨?_, ?_, ?_, ?_⟩, l, hr, h3⟩
    · rintro m v ⟨l, hr, hc⟩
      have := hC.safe hc
      unfold LocTree.isInconsistent at this ⊢
      rw [← hR.ty hr]; exact this
    · rintro m v d ⟨l, hr, hc⟩ hd
      exact ⟨l, hr, hC.delay hc ((hR.canDelay hr).2 hd)⟩
    · rintro m v i m' v' ⟨l, hr, hc⟩ hi ha
      obtain ⟨l', ha', hr'⟩ := hR.right hr ha
      exact ⟨l', hr', hC.input hc ((h.inputs i).2 hi) ha'⟩
    · rintro m v ⟨l, hr, hc⟩
      rcases hC.progress hc with hp | ⟨d, hd, o, ho, l', v', ha, hc'⟩
      · exact .inl fun d h0 => (hR.canDelay hr).1 (hp d h0)
      · obtain ⟨m', ha', hr'⟩ := hR.left hr ha
        exact .inr ⟨d, (hR.canDelay hr).1 hd, o, (h.outputs o).1 ho, m', v', ha', l', hr', hc'⟩

theorem TS.Same.reach {A B : TS F} (h : A.Same B) : ∃ R, A.Corresponds B R ∧
    ∀ m v, B.Reach m v → ∃ l, A.Reach l v ∧ R l m := by
  obtain ⟨R, hR, hs⟩ := h.states
  refine ⟨R, hR, fun m v hm => ?_⟩
  induction hm with
  | init hi hz =>
    rcases hs with ⟨_, g⟩ | ⟨l, m', g, gm, hr⟩
    · rw [hi] at g; cases g
    · rw [hi] at gm; cases gm
      exact ⟨l, .init g ((hR.inv hr _).2 hz), hr⟩
  | act _ ha ih =>
    obtain ⟨l, hl, hr⟩ := ih
    obtain ⟨l', ha', hr'⟩ := hR.right hr ha
    exact ⟨l', .act hl ha', hr'⟩
  | delay _ hd ih =>
    obtain ⟨l, hl, hr⟩ := ih
    exact ⟨l, .delay hl ((hR.canDelay hr).2 hd), hr⟩

theorem TS.Same.deterministic {A B : TS F} (h : A.Same B) (hd : A.Deterministic) : B.Deterministic := by
  obtain ⟨R, hR, hre⟩ := h.reach
  intro m v hm
  obtain ⟨l, hl, hr⟩ := hre m v hm
  exact (hR.det hr v).1 (hd l v hl)

/-- Systems that are the same get the same true answers: they refine the same systems, are refined by the same systems,
and one is consistent or deterministic exactly if the other is. -/
theorem C79_same_answers {A B : TS F} (h : A.Same B) :
    (∀ U : TS F, Refines A U ↔ Refines B U) ∧ (∀ U : TS F, Refines U A ↔ Refines U B) ∧
      (A.Consistent ↔ B.Consistent) ∧ (A.Deterministic ↔ B.Deterministic) :=
  ⟨fun _ => ⟨h.refines_left, h.symm.refines_left⟩, fun _ => ⟨h.refines_right, h.symm.refines_right⟩,
    ⟨h.consistent, h.symm.consistent⟩, h.deterministic, h.symm.deterministic⟩

/-! ## Products -/

omit [ZoneLib F] in
theorem LocType.combine_comm (a b : LocType) : a.combine b = b.combine a := by cases a <;> cases b <;> rfl
omit [ZoneLib F] in
theorem LocType.combine_assoc (a b c : LocType) : (a.combine b).combine c = a.combine (b.combine c) := by
  cases a <;> cases b <;> cases c <;> rfl

namespace Sys

theorem act_hasAction {s : Sys F} {x x' : LocTree F} {v v' : Val} {a : String} (h : s.ts.Act x v a x' v') :
    s.hasAction a = true := h.1

/-- What a participant does depends on the values of its own clocks after the move only. -/
theorem participates_congr {s : Sys F} {x x' : LocTree F} {v v1 v2 : Val} {a : String}
    (hag : ∀ i ∈ s.clocks, v1 i = v2 i) (h : s.Participates x v a x' v1) : s.Participates x v a x' v2 := by
  refine ⟨fun ha => ?_, fun ha => ?_⟩
  · obtain ⟨w, h1, h2⟩ := h.1 ha
    exact ⟨w, h1, fun i hi => by rw [← hag i hi, h2 i hi]⟩
  · obtain ⟨h1, h2, h3⟩ := h.2 ha
    exact ⟨h1, h2, fun i hi => by rw [← hag i hi, h3 i hi]⟩

theorem participates_loc {s : Sys F} (hs : s.Good) {x x' : LocTree F} {v v' : Val} {a : String} (hx : s.IsLoc x)
    (hv : Valid (dim F) v) (h : s.Participates x v a x' v') : s.IsLoc x' := by
  cases ha : s.hasAction a with
  | true =>
    obtain ⟨w, h1, _⟩ := h.1 ha
    exact (act_valid hs hx hv h1).1
  | false => rw [(h.2 ha).1]; exact hx

/-- A product takes part in a larger product as its participants do. -/
theorem IsProd.participates {s l r : Sys F} {c : CompType} (h : s.IsProd l r c) (hl : l.Good) (hr : r.Good)
    (hdis : l.DisjointClocks r) {x xl xr x' : LocTree F} (hxl : l.IsLoc xl) (hxr : r.IsLoc xr)
    (hx : LocTree.compose xl xr c = .ok x) {v v' : Val} (hv : Valid (dim F) v) {a : String}
    (ha : s.hasAction a = true ∨ (s.hasAction a = false ∧ l.hasAction a = false ∧ r.hasAction a = false)) :
    s.Participates x v a x' v' ↔ ∃ xl' xr', LocTree.compose xl' xr' c = .ok x' ∧
      l.Participates xl v a xl' v' ∧ r.Participates xr v a xr' v' := by
  have hcl : ∀ i ∈ l.clocks, i ∈ s.clocks := fun i hi => (h.clocks i).2 (.inl hi)
  have hcr : ∀ i ∈ r.clocks, i ∈ s.clocks := fun i hi => (h.clocks i).2 (.inr hi)
  rcases ha with ha | ⟨ha, ha1, ha2⟩
  · constructor
    · intro hp
      obtain ⟨w, h1, h2⟩ := hp.1 ha
      obtain ⟨xl', xr', h3, h4, h5, _⟩ := (h.act_iff hl hr hdis hxl hxr hx hv ha).1 h1
      exact ⟨xl', xr', h3, participates_congr (fun i hi => (h2 i (hcl i hi)).symm) h4,
        participates_congr (fun i hi => (h2 i (hcr i hi)).symm) h5⟩
    · rintro ⟨xl', xr', h3, h4, h5⟩
      classical
      refine ⟨fun _ => ⟨fun i => if i ∈ s.clocks then v' i else v i,
        (h.act_iff hl hr hdis hxl hxr hx hv ha).2 ⟨xl', xr', h3, ?_, ?_, ?_⟩, ?_⟩, fun hf => by rw [ha] at hf; cases hf⟩
      · exact participates_congr (fun i hi => (if_pos (hcl i hi)).symm) h4
      · exact participates_congr (fun i hi => (if_pos (hcr i hi)).symm) h5
      · intro i hi; exact if_neg hi
      · intro i hi; exact (if_pos hi).symm
  · constructor
    · intro hp
      obtain ⟨rfl, h1, h2⟩ := hp.2 ha
      rw [mem_compose_inv hx] at h1
      exact ⟨xl, xr, hx, ⟨fun hf => (by rw [ha1] at hf; cases hf), fun _ => ⟨rfl, h1.1, fun i hi => h2 i (hcl i hi)⟩⟩,
        ⟨fun hf => (by rw [ha2] at hf; cases hf), fun _ => ⟨rfl, h1.2, fun i hi => h2 i (hcr i hi)⟩⟩⟩
    · rintro ⟨xl', xr', h3, h4, h5⟩
      obtain ⟨rfl, h6, h7⟩ := h4.2 ha1
      obtain ⟨rfl, h8, h9⟩ := h5.2 ha2
      rw [hx] at h3; cases h3
      refine ⟨fun hf => (by rw [ha] at hf; cases hf), fun _ => ⟨rfl, (mem_compose_inv hx).2 ⟨h6, h8⟩, fun i hi => ?_⟩⟩
      rcases (h.clocks i).1 hi with hi | hi
      · exact h7 i hi
      · exact h9 i hi

theorem act_source_valid {s : Sys F} {x x' : LocTree F} {v v' : Val} {a : String} (h : s.ts.Act x v a x' v') :
    Valid (dim F) v := by
  obtain ⟨_, _, _, t, _, hc, _⟩ := h
  exact ZoneLib.den_valid hc.1

/-- The initial location of a product is the pair of the initial locations. -/
theorem IsProd.initial {s l r : Sys F} {c : CompType} (h : s.IsProd l r c) (hs : s.Good)
    (hn : s.initialLoc = .ok none → l.initialLoc = .ok none ∨ r.initialLoc = .ok none) :
    (s.initialLoc = .ok none ∧ (l.initialLoc = .ok none ∨ r.initialLoc = .ok none)) ∨
    ∃ x a b, s.initialLoc = .ok (some x) ∧ l.initialLoc = .ok (some a) ∧ r.initialLoc = .ok (some b) ∧
      LocTree.compose a b c = .ok x := by
  obtain ⟨o, ho, _⟩ := hs.initial
  cases o with
  | none => exact .inl ⟨ho, hn ho⟩
  | some x =>
    obtain ⟨a, b, h1, h2, h3⟩ := h.init x ho
    exact .inr ⟨x, a, b, ho, h1, h2, h3⟩

/-! How many transitions of a list can be taken: at most one, if there is no choice; and in a product, as many as there
are pairs. -/

open Classical in
theorem pairwise_countP {α : Type} {P : α → Prop} {l : List α} :
    l.Pairwise (fun t t' => ¬ (P t ∧ P t')) ↔ l.countP (fun t => decide (P t)) ≤ 1 := by
  induction l with
  | nil => simp
  | cons a l ih =>
    rw [List.pairwise_cons, ih, List.countP_cons]
    by_cases ha : P a
    · simp only [ha, true_and, decide_true, if_true]
      constructor
      · rintro ⟨h, _⟩
        have : l.countP (fun t => decide (P t)) = 0 := List.countP_eq_zero.2 fun t ht => by simpa using h t ht
        omega
      · intro h
        have h0 : l.countP (fun t => decide (P t)) = 0 := by omega
        exact ⟨fun t ht => by simpa using List.countP_eq_zero.1 h0 t ht, by omega⟩
    · simp [ha]

open Classical in
theorem combinations_countP {C D : List Nat} (hdis : ∀ i ∈ C, i ∉ D) {ls rs ts : List (Transition F)} {c : CompType}
    (hc : c.IsProd) (hl : ∀ t ∈ ls, GoodTrans C t) (hr : ∀ t ∈ rs, GoodTrans D t)
    (h : Transition.combinations ls rs c = .ok ts) (v : Val) :
    ts.countP (fun t => decide (CanTake t v)) =
      ls.countP (fun t => decide (CanTake t v)) * rs.countP (fun t => decide (CanTake t v)) := by
  unfold Transition.combinations at h
  have key : ∀ (ps : List (Transition F × Transition F)) (ts : List (Transition F)),
      (∀ p ∈ ps, GoodTrans C p.1 ∧ GoodTrans D p.2) → (ps.mapM fun p => Transition.combine p.1 p.2 c) = .ok ts →
      ts.countP (fun t => decide (CanTake t v)) =
        ps.countP (fun p => decide (CanTake p.1 v) && decide (CanTake p.2 v)) := by
    intro ps ts hg h
    replace h := mapM_ok.1 h
    induction h with
    | nil => rfl
    | @cons p t ps ts h1 h2 ih =>
      rw [List.countP_cons, List.countP_cons, ih fun q hq => hg q (List.mem_cons_of_mem _ hq)]
      have := canTake_combine hdis (hg p (List.mem_cons_self ..)).1 (hg p (List.mem_cons_self ..)).2 hc h1 (v := v)
      simp only [this, Bool.decide_and]
  rw [key _ _ ?_ h]
  · clear h key hl
    induction ls with
    | nil => simp
    | cons a ls ih =>
      rw [List.flatMap_cons, List.countP_append, ih, List.countP_cons, List.countP_map]
      have : ((fun p : Transition F × Transition F => decide (CanTake p.1 v) && decide (CanTake p.2 v)) ∘ fun r => (a, r))
          = fun r => decide (CanTake a v) && decide (CanTake r v) := rfl
      rw [this]
      by_cases ha : CanTake a v
      · simp only [ha, decide_true, Bool.true_and, if_true]; ring
      · simp [ha]
  · intro p hp
    obtain ⟨l, hl', hp⟩ := List.mem_flatMap.1 hp
    obtain ⟨r, hr', rfl⟩ := List.mem_map.1 hp
    exact ⟨hl l hl', hr r hr'⟩

open Classical in
theorem IsProd.side_count {s l r : Sys F} {c : CompType} (h : s.IsProd l r c) (hl : l.Good) (hr : r.Good)
    (hdis : l.DisjointClocks r) {x xl xr : LocTree F} (hxl : l.IsLoc xl) (hxr : r.IsLoc xr)
    (hx : LocTree.compose xl xr c = .ok x) {a : String}
    (ha : s.hasAction a = true ∨ (s.hasAction a = false ∧ l.hasAction a = false ∧ r.hasAction a = false))
    {ls rs ts : List (Transition F)} (hls : l.sideMoves xl a = .ok ls) (hrs : r.sideMoves xr a = .ok rs)
    (hts : s.sideMoves x a = .ok ts) (v : Val) :
    ts.countP (fun t => decide (CanTake t v)) =
      ls.countP (fun t => decide (CanTake t v)) * rs.countP (fun t => decide (CanTake t v)) := by
  rcases ha with ha | ⟨ha, ha1, ha2⟩
  · obtain ⟨ls', e1, gl⟩ := sideMoves_good hl hxl a
    obtain ⟨rs', e2, gr⟩ := sideMoves_good hr hxr a
    rw [hls] at e1; cases e1
    rw [hrs] at e2; cases e2
    unfold sideMoves at hts
    rw [if_pos ha, h.moves x xl xr a ha hx, hls, hrs] at hts
    simp only [ok_bind] at hts
    exact combinations_countP hdis h.kind (fun t ht => (gl t ht).2) (fun t ht => (gr t ht).2) hts v
  · unfold sideMoves at hls hrs hts
    rw [ha1] at hls; rw [ha2] at hrs; rw [ha] at hts
    simp only [Bool.false_eq_true, if_false, Except.ok.injEq] at hls hrs hts
    subst hls hrs hts
    simp only [List.countP_cons, List.countP_nil, canTake_withoutId, mem_compose_inv hx, Bool.decide_and, zero_add]
    by_cases h1 : Valid (dim F) v <;> by_cases h2 : v ∈ InvSet xl <;> by_cases h3 : v ∈ InvSet xr <;> simp [h1, h2, h3]

open Classical in
theorem detAt_iff {s : Sys F} {x : LocTree F} {v : Val} : s.ts.DetAt x v ↔
    ∀ a, s.hasAction a = true → ∀ ts, s.sideMoves x a = .ok ts → ts.countP (fun t => decide (CanTake t v)) ≤ 1 := by
  constructor
  · intro h a ha ts hts
    unfold sideMoves at hts
    rw [if_pos ha] at hts
    exact pairwise_countP.1 (h a ts ha hts)
  · intro h a ts ha hts
    refine pairwise_countP.2 (h a ha ts ?_)
    unfold sideMoves
    rw [if_pos (show s.hasAction a = true from ha)]; exact hts

/-- Swapping the sides of a product gives the same system. -/
theorem IsProd.swap_same {s s' l r : Sys F} {c : CompType} (h : s.IsProd l r c) (h' : s'.IsProd r l c)
    (hl : l.Good) (hr : r.Good) (hs : s.Good) (hs' : s'.Good) (hdis : l.DisjointClocks r)
    (hn : s.initialLoc = .ok none → l.initialLoc = .ok none ∨ r.initialLoc = .ok none)
    (hn' : s'.initialLoc = .ok none → r.initialLoc = .ok none ∨ l.initialLoc = .ok none)
    (hi : ∀ a, a ∈ s.inputs ↔ a ∈ s'.inputs) (ho : ∀ a, a ∈ s.outputs ↔ a ∈ s'.outputs) :
    s.ts.Same s'.ts := by
  have hdis' : r.DisjointClocks l := fun i h1 h2 => hdis i h2 h1
  have hact : ∀ a, s.hasAction a = true ↔ s'.hasAction a = true := fun a => by
    rw [hasAction_iff, hasAction_iff, hi, ho]
  have hcl : ∀ i, i ∈ s.clocks ↔ i ∈ s'.clocks := fun i => by rw [h.clocks, h'.clocks]; tauto
  refine ⟨hi, ho, fun x y => ∃ a b, l.IsLoc a ∧ r.IsLoc b ∧ LocTree.compose a b c = .ok x ∧
    LocTree.compose b a c = .ok y, ⟨?_, ?_, ?_, ?_, ?_⟩, ?_⟩
  · rintro x y ⟨a, b, ha, hb, hx, hy⟩ v
    rw [mem_compose_inv hx, mem_compose_inv hy]; tauto
  · rintro x y ⟨a, b, ha, hb, hx, hy⟩
    rw [(compose_parts hx).2.2.2, (compose_parts hy).2.2.2, LocType.combine_comm]
  · rintro x y v o x' v' ⟨a, b, ha, hb, hx, hy⟩ hm
    have hv := act_source_valid hm
    obtain ⟨a', b', h1, h2, h3, h4⟩ := (h.act_iff hl hr hdis ha hb hx hv (act_hasAction hm)).1 hm
    obtain ⟨y', hy'⟩ := compose_total h.kind b' a'
    exact ⟨y', (h'.act_iff hr hl hdis' hb ha hy hv ((hact o).1 (act_hasAction hm))).2
      ⟨b', a', hy', h3, h2, fun i hi => h4 i fun hc => hi ((hcl i).1 hc)⟩,
      a', b', participates_loc hl ha hv h2, participates_loc hr hb hv h3, h1, hy'⟩
  · rintro x y v o y' v' ⟨a, b, ha, hb, hx, hy⟩ hm
    have hv := act_source_valid hm
    obtain ⟨b', a', h1, h2, h3, h4⟩ := (h'.act_iff hr hl hdis' hb ha hy hv (act_hasAction hm)).1 hm
    obtain ⟨x', hx'⟩ := compose_total h.kind a' b'
    exact ⟨x', (h.act_iff hl hr hdis ha hb hx hv ((hact o).2 (act_hasAction hm))).2
      ⟨a', b', hx', h3, h2, fun i hi => h4 i fun hc => hi ((hcl i).2 hc)⟩,
      a', b', participates_loc hl ha hv h3, participates_loc hr hb hv h2, hx', h1⟩
  · rintro x y ⟨a, b, ha, hb, hx, hy⟩ v
    rw [detAt_iff, detAt_iff]
    refine forall_congr' fun o => ?_
    rw [← hact o]
    refine forall_congr' fun hO => ?_
    obtain ⟨ls, e1, _⟩ := sideMoves_good hl ha o
    obtain ⟨rs, e2, _⟩ := sideMoves_good hr hb o
    obtain ⟨ts, e3, _⟩ := sideMoves_good hs ((h.locs x).2 ⟨a, b, ha, hb, hx⟩) o
    obtain ⟨ts', e4, _⟩ := sideMoves_good hs' ((h'.locs y).2 ⟨b, a, hb, ha, hy⟩) o
    simp only [e3, e4, Except.ok.injEq, forall_eq']
    rw [h.side_count hl hr hdis ha hb hx (.inl hO) e1 e2 e3 v,
      h'.side_count hr hl hdis' hb ha hy (.inl ((hact o).1 hO)) e2 e1 e4 v, Nat.mul_comm]
  · rcases h.initial hs hn with ⟨h1, h2⟩ | ⟨x, a, b, h1, h2, h3, h4⟩ <;>
      rcases h'.initial hs' hn' with ⟨g1, g2⟩ | ⟨y, b', a', g1, g2, g3, g4⟩
    · exact .inl ⟨h1, g1⟩
    · rw [g2, g3] at h2; rcases h2 with h2 | h2 <;> cases h2
    · rw [h2, h3] at g2; rcases g2 with g2 | g2 <;> cases g2
    · rw [h3] at g2; cases g2
      rw [h2] at g3; cases g3
      refine .inr ⟨x, y, h1, g1, a, b, ?_, ?_, h4, g4⟩
      · obtain ⟨o, ho, hl⟩ := hl.initial
        rw [h2] at ho; cases ho; exact hl _ rfl
      · obtain ⟨o, ho, hl⟩ := hr.initial
        rw [h3] at ho; cases ho; exact hl _ rfl

theorem good_initial {s : Sys F} (hs : s.Good) {x : LocTree F} (h : s.initialLoc = .ok (some x)) : s.IsLoc x := by
  obtain ⟨o, ho, hl⟩ := hs.initial
  rw [h] at ho; cases ho; exact hl _ rfl

set_option maxHeartbeats 1000000 in
/-- Grouping three systems differently gives the same system. -/
theorem IsProd.assoc_same {p q r pq qr s s' : Sys F} {c : CompType} (h1 : pq.IsProd p q c) (h2 : s.IsProd pq r c)
    (h3 : qr.IsProd q r c) (h4 : s'.IsProd p qr c) (hp : p.Good) (hq : q.Good) (hr : r.Good) (hpq : pq.Good)
    (hqr : qr.Good) (hs : s.Good) (hs' : s'.Good) (d1 : p.DisjointClocks q) (d2 : p.DisjointClocks r)
    (d3 : q.DisjointClocks r)
    (n1 : pq.initialLoc = .ok none → p.initialLoc = .ok none ∨ q.initialLoc = .ok none)
    (n2 : s.initialLoc = .ok none → pq.initialLoc = .ok none ∨ r.initialLoc = .ok none)
    (n3 : qr.initialLoc = .ok none → q.initialLoc = .ok none ∨ r.initialLoc = .ok none)
    (n4 : s'.initialLoc = .ok none → p.initialLoc = .ok none ∨ qr.initialLoc = .ok none)
    (hi : ∀ a, a ∈ s.inputs ↔ a ∈ s'.inputs) (ho : ∀ a, a ∈ s.outputs ↔ a ∈ s'.outputs)
    (k1 : ∀ a, s.hasAction a = true →
      pq.hasAction a = true ∨ (pq.hasAction a = false ∧ p.hasAction a = false ∧ q.hasAction a = false))
    (k2 : ∀ a, s.hasAction a = true →
      qr.hasAction a = true ∨ (qr.hasAction a = false ∧ q.hasAction a = false ∧ r.hasAction a = false)) :
    s.ts.Same s'.ts := by
  have e1' : pq.DisjointClocks r := fun i hi => by
    rcases (h1.clocks i).1 hi with hi | hi
    · exact d2 i hi
    · exact d3 i hi
  have e2' : p.DisjointClocks qr := fun i hi hc => by
    rcases (h3.clocks i).1 hc with hc | hc
    · exact d1 i hi hc
    · exact d2 i hi hc
  have hact : ∀ a, s.hasAction a = true ↔ s'.hasAction a = true := fun a => by
    rw [hasAction_iff, hasAction_iff, hi, ho]
  have hcl : ∀ i, i ∈ s.clocks ↔ i ∈ s'.clocks := fun i => by
    rw [h2.clocks, h1.clocks, h4.clocks, h3.clocks]; tauto
  refine ⟨hi, ho, fun x y => ∃ a b d ab bd, p.IsLoc a ∧ q.IsLoc b ∧ r.IsLoc d ∧ LocTree.compose a b c = .ok ab ∧
    LocTree.compose ab d c = .ok x ∧ LocTree.compose b d c = .ok bd ∧ LocTree.compose a bd c = .ok y,
    ⟨?_, ?_, ?_, ?_, ?_⟩, ?_⟩
  · rintro x y ⟨a, b, d, ab, bd, ha, hb, hd, hab, hx, hbd, hy⟩ v
    rw [mem_compose_inv hx, mem_compose_inv hab, mem_compose_inv hy, mem_compose_inv hbd]; tauto
  · rintro x y ⟨a, b, d, ab, bd, ha, hb, hd, hab, hx, hbd, hy⟩
    rw [(compose_parts hx).2.2.2, (compose_parts hab).2.2.2, (compose_parts hy).2.2.2, (compose_parts hbd).2.2.2,
      LocType.combine_assoc]
  · rintro x y v o x' v' ⟨a, b, d, ab, bd, ha, hb, hd, hab, hx, hbd, hy⟩ hm
    have hv := act_source_valid hm
    have hAB : pq.IsLoc ab := (h1.locs ab).2 ⟨a, b, ha, hb, hab⟩
    have hBD : qr.IsLoc bd := (h3.locs bd).2 ⟨b, d, hb, hd, hbd⟩
    obtain ⟨ab', d', f1, f2, f3, f4⟩ := (h2.act_iff hpq hr e1' hAB hd hx hv (act_hasAction hm)).1 hm
    obtain ⟨a', b', f5, f6, f7⟩ := (h1.participates hp hq d1 ha hb hab hv (k1 o (act_hasAction hm))).1 f2
    obtain ⟨bd', g1⟩ := compose_total h1.kind b' d'
    obtain ⟨y', g2⟩ := compose_total h1.kind a' bd'
    refine ⟨y', (h4.act_iff hp hqr e2' ha hBD hy hv ((hact o).1 (act_hasAction hm))).2 ⟨a', bd', g2, f6,
      (h3.participates hq hr d3 hb hd hbd hv (k2 o (act_hasAction hm))).2 ⟨b', d', g1, f7, f3⟩,
      fun i hi => f4 i fun hc => hi ((hcl i).1 hc)⟩, a', b', d', ab', bd', participates_loc hp ha hv f6,
      participates_loc hq hb hv f7, participates_loc hr hd hv f3, f5, f1, g1, g2⟩
  · rintro x y v o y' v' ⟨a, b, d, ab, bd, ha, hb, hd, hab, hx, hbd, hy⟩ hm
    have hv := act_source_valid hm
    have ho := (hact o).2 (act_hasAction hm)
    have hAB : pq.IsLoc ab := (h1.locs ab).2 ⟨a, b, ha, hb, hab⟩
    have hBD : qr.IsLoc bd := (h3.locs bd).2 ⟨b, d, hb, hd, hbd⟩
    obtain ⟨a', bd', f1, f2, f3, f4⟩ := (h4.act_iff hp hqr e2' ha hBD hy hv (act_hasAction hm)).1 hm
    obtain ⟨b', d', f5, f6, f7⟩ := (h3.participates hq hr d3 hb hd hbd hv (k2 o ho)).1 f3
    obtain ⟨ab', g1⟩ := compose_total h1.kind a' b'
    obtain ⟨x', g2⟩ := compose_total h1.kind ab' d'
    refine ⟨x', (h2.act_iff hpq hr e1' hAB hd hx hv ho).2 ⟨ab', d', g2,
      (h1.participates hp hq d1 ha hb hab hv (k1 o ho)).2 ⟨a', b', g1, f2, f6⟩, f7,
      fun i hi => f4 i fun hc => hi ((hcl i).2 hc)⟩, a', b', d', ab', bd', participates_loc hp ha hv f2,
      participates_loc hq hb hv f6, participates_loc hr hd hv f7, g1, g2, f5, f1⟩
  · rintro x y ⟨a, b, d, ab, bd, ha, hb, hd, hab, hx, hbd, hy⟩ v
    have hAB : pq.IsLoc ab := (h1.locs ab).2 ⟨a, b, ha, hb, hab⟩
    have hBD : qr.IsLoc bd := (h3.locs bd).2 ⟨b, d, hb, hd, hbd⟩
    rw [detAt_iff, detAt_iff]
    refine forall_congr' fun o => ?_
    rw [← hact o]
    refine forall_congr' fun hO => ?_
    obtain ⟨as, e1, _⟩ := sideMoves_good hp ha o
    obtain ⟨bs, e2, _⟩ := sideMoves_good hq hb o
    obtain ⟨ds, e3, _⟩ := sideMoves_good hr hd o
    obtain ⟨abs, e4, _⟩ := sideMoves_good hpq hAB o
    obtain ⟨bds, e5, _⟩ := sideMoves_good hqr hBD o
    obtain ⟨ts, e6, _⟩ := sideMoves_good hs ((h2.locs x).2 ⟨ab, d, hAB, hd, hx⟩) o
    obtain ⟨ts', e7, _⟩ := sideMoves_good hs' ((h4.locs y).2 ⟨a, bd, ha, hBD, hy⟩) o
    simp only [e6, e7, Except.ok.injEq, forall_eq']
    rw [h2.side_count hpq hr e1' hAB hd hx (.inl hO) e4 e3 e6 v,
      h1.side_count hp hq d1 ha hb hab (k1 o hO) e1 e2 e4 v,
      h4.side_count hp hqr e2' ha hBD hy (.inl ((hact o).1 hO)) e1 e5 e7 v,
      h3.side_count hq hr d3 hb hd hbd (k2 o hO) e2 e3 e5 v, Nat.mul_assoc]
  · rcases h2.initial hs n2 with ⟨i1, i2⟩ | ⟨x, ab, d, i1, i2, i3, i4⟩ <;>
      rcases h4.initial hs' n4 with ⟨j1, j2⟩ | ⟨y, a, bd, j1, j2, j3, j4⟩
    · exact .inl ⟨i1, j1⟩
    · obtain ⟨b, d, t1, t2, t3⟩ := h3.init bd j3
      rcases i2 with i2 | i2
      · rcases n1 i2 with i2 | i2
        · rw [j2] at i2; cases i2
        · rw [t1] at i2; cases i2
      · rw [t2] at i2; cases i2
    · obtain ⟨a, b, t1, t2, t3⟩ := h1.init ab i2
      rcases j2 with j2 | j2
      · rw [t1] at j2; cases j2
      · rcases n3 j2 with j2 | j2
        · rw [t2] at j2; cases j2
        · rw [i3] at j2; cases j2
    · obtain ⟨a', b, t1, t2, t3⟩ := h1.init ab i2
      obtain ⟨b', d', u1, u2, u3⟩ := h3.init bd j3
      rw [j2] at t1; cases t1
      rw [t2] at u1; cases u1
      rw [i3] at u2; cases u2
      exact .inr ⟨x, y, i1, j1, a, b, d, ab, bd, good_initial hp j2, good_initial hq t2, good_initial hr i3, t3, i4, u3,
        j4⟩

omit [ZoneLib F] in
theorem newComposition_ok {l r : Sys F} (h : ∀ a ∈ l.outputs, a ∉ r.outputs) : ∃ s, newComposition l r = .ok s := by
  unfold newComposition
  rw [setDisjoint_iff.2 h]
  exact ⟨_, rfl⟩

omit [ZoneLib F] in
theorem newConjunction_ok {l r : Sys F} (h : ∀ a ∈ l.inputs, a ∉ r.outputs) (h' : ∀ a ∈ l.outputs, a ∉ r.inputs) :
    ∃ s, newConjunctionUnchecked l r = .ok s := by
  unfold newConjunctionUnchecked
  rw [setDisjoint_iff.2 h, setDisjoint_iff.2 h']
  exact ⟨_, rfl⟩

omit [ZoneLib F] in
theorem composition_inputs {l r s : Sys F} (h : newComposition l r = .ok s) (a : String) :
    a ∈ s.inputs ↔ (a ∈ l.inputs ∧ a ∉ r.outputs) ∨ (a ∈ r.inputs ∧ a ∉ l.outputs) := by
  obtain ⟨_, rfl⟩ := newComposition_eq h
  rw [inputs_composition, mem_mkSet]
  simp

omit [ZoneLib F] in
theorem composition_outputs {l r s : Sys F} (h : newComposition l r = .ok s) (a : String) :
    a ∈ s.outputs ↔ a ∈ l.outputs ∨ a ∈ r.outputs := by
  obtain ⟨_, rfl⟩ := newComposition_eq h
  rw [outputs_composition, mem_setUnion]

omit [ZoneLib F] in
theorem conjunction_inputs {l r s : Sys F} (h : newConjunctionUnchecked l r = .ok s) (a : String) :
    a ∈ s.inputs ↔ a ∈ l.inputs ∧ a ∈ r.inputs := by
  obtain ⟨_, _, rfl⟩ := newConjunction_eq h
  rw [inputs_conjunction, mem_setInter]

omit [ZoneLib F] in
theorem conjunction_outputs {l r s : Sys F} (h : newConjunctionUnchecked l r = .ok s) (a : String) :
    a ∈ s.outputs ↔ a ∈ l.outputs ∧ a ∈ r.outputs := by
  obtain ⟨_, _, rfl⟩ := newConjunction_eq h
  rw [outputs_conjunction, mem_setInter]

omit [ZoneLib F] in
theorem hasAction_or {s : Sys F} {a : String} {P : Prop} (h : s.hasAction a = false → P) :
    s.hasAction a = true ∨ (s.hasAction a = false ∧ P) := by
  cases hs : s.hasAction a with
  | true => exact .inl rfl
  | false => exact .inr ⟨rfl, h hs⟩

omit [ZoneLib F] in
theorem hasAction_false {s : Sys F} {a : String} : s.hasAction a = false ↔ a ∉ s.inputs ∧ a ∉ s.outputs := by
  rw [← Bool.not_eq_true, hasAction_iff]; tauto

end Sys

open Sys

/-- `A || B` and `B || A`: one is accepted exactly if the other is, and they are the same. -/
theorem C79_composition_comm {l r s : Sys F} (hl : l.Accepted) (hr : r.Accepted) (hdis : l.DisjointClocks r)
    (hs : Sys.newComposition l r = .ok s) : ∃ s', Sys.newComposition r l = .ok s' ∧ s.ts.Same s'.ts := by
  obtain ⟨hd, _⟩ := newComposition_eq hs
  obtain ⟨s', hs'⟩ := newComposition_ok (l := r) (r := l) fun a h1 h2 => hd a h2 h1
  have hdis' : r.DisjointClocks l := fun i h1 h2 => hdis i h2 h1
  refine ⟨s', hs', (isProd_composition hs).swap_same (isProd_composition hs') hl.good hr.good
    (Accepted.composition hl hr hs).good (Accepted.composition hr hl hs').good hdis
    (join_composition hl.good hr.good hdis hs).initNone (join_composition hr.good hl.good hdis' hs').initNone ?_ ?_⟩
  · intro a; rw [composition_inputs hs, composition_inputs hs']; tauto
  · intro a; rw [composition_outputs hs, composition_outputs hs']; tauto

/-- `(A || B) || C` and `A || (B || C)`: if the first is accepted so is the second, and they are the same. -/
theorem C79_composition_assoc {p q r pq s : Sys F} (hp : p.Accepted) (hq : q.Accepted) (hr : r.Accepted)
    (d1 : p.DisjointClocks q) (d2 : p.DisjointClocks r) (d3 : q.DisjointClocks r)
    (h1 : Sys.newComposition p q = .ok pq) (h2 : Sys.newComposition pq r = .ok s) :
    ∃ qr s', Sys.newComposition q r = .ok qr ∧ Sys.newComposition p qr = .ok s' ∧ s.ts.Same s'.ts := by
  obtain ⟨c1, _⟩ := newComposition_eq h1
  obtain ⟨c2, _⟩ := newComposition_eq h2
  obtain ⟨qr, h3⟩ := newComposition_ok (l := q) (r := r) fun a ha => c2 a ((composition_outputs h1 a).2 (.inr ha))
  obtain ⟨s', h4⟩ := newComposition_ok (l := p) (r := qr) fun a ha hb => by
    rcases (composition_outputs h3 a).1 hb with hb | hb
    · exact c1 a ha hb
    · exact c2 a ((composition_outputs h1 a).2 (.inl ha)) hb
  have gpq := (Accepted.composition hp hq h1)
  have gqr := (Accepted.composition hq hr h3)
  have e1 : pq.DisjointClocks r := fun i hi => by
    rcases ((isProd_composition h1).clocks i).1 hi with hi | hi
    · exact d2 i hi
    · exact d3 i hi
  have e2 : p.DisjointClocks qr := fun i hi hc => by
    rcases ((isProd_composition h3).clocks i).1 hc with hc | hc
    · exact d1 i hi hc
    · exact d2 i hi hc
  refine ⟨qr, s', h3, h4, IsProd.assoc_same (isProd_composition h1) (isProd_composition h2) (isProd_composition h3)
    (isProd_composition h4) hp.good hq.good hr.good gpq.good gqr.good (Accepted.composition gpq hr h2).good
    (Accepted.composition hp gqr h4).good d1 d2 d3 (join_composition hp.good hq.good d1 h1).initNone
    (join_composition gpq.good hr.good e1 h2).initNone (join_composition hq.good hr.good d3 h3).initNone
    (join_composition hp.good gqr.good e2 h4).initNone ?_ ?_ ?_ ?_⟩
  · intro a
    rw [composition_inputs h2, composition_inputs h1, composition_outputs h1, composition_inputs h4,
      composition_inputs h3, composition_outputs h3]; tauto
  · intro a
    rw [composition_outputs h2, composition_outputs h1, composition_outputs h4, composition_outputs h3]; tauto
  · intro a _
    refine hasAction_or fun hf => ?_
    rw [hasAction_false, composition_inputs h1, composition_outputs h1] at hf
    rw [hasAction_false, hasAction_false]; tauto
  · intro a _
    refine hasAction_or fun hf => ?_
    rw [hasAction_false, composition_inputs h3, composition_outputs h3] at hf
    rw [hasAction_false, hasAction_false]; tauto

/-- `A && B` and `B && A`: the alphabets of one fit exactly if those of the other do, and they are the same. -/
theorem C79_conjunction_comm {l r s : Sys F} (hl : l.Accepted) (hr : r.Accepted) (hdis : l.DisjointClocks r)
    (hs : Sys.newConjunctionUnchecked l r = .ok s) :
    ∃ s', Sys.newConjunctionUnchecked r l = .ok s' ∧ s.ts.Same s'.ts := by
  obtain ⟨c1, c2, _⟩ := newConjunction_eq hs
  obtain ⟨s', hs'⟩ := newConjunction_ok (l := r) (r := l) (fun a h1 h2 => c2 a h2 h1) fun a h1 h2 => c1 a h2 h1
  have hdis' : r.DisjointClocks l := fun i h1 h2 => hdis i h2 h1
  refine ⟨s', hs', (isProd_conjunction hs).swap_same (isProd_conjunction hs') hl.good hr.good
    (Accepted.conjunction hl hr hs).good (Accepted.conjunction hr hl hs').good hdis
    (join_conjunction hl.good hr.good hdis hs).initNone (join_conjunction hr.good hl.good hdis' hs').initNone ?_ ?_⟩
  · intro a; rw [conjunction_inputs hs, conjunction_inputs hs']; tauto
  · intro a; rw [conjunction_outputs hs, conjunction_outputs hs']; tauto

/-- `(A && B) && C` and `A && (B && C)`, if both are accepted, are the same.  (One may be accepted and the other not, see
`C79_violated_conjunction_order`.) -/
theorem C79_conjunction_assoc_partial {p q r pq qr s s' : Sys F} (hp : p.Accepted) (hq : q.Accepted) (hr : r.Accepted)
    (d1 : p.DisjointClocks q) (d2 : p.DisjointClocks r) (d3 : q.DisjointClocks r)
    (h1 : Sys.newConjunctionUnchecked p q = .ok pq) (h2 : Sys.newConjunctionUnchecked pq r = .ok s)
    (h3 : Sys.newConjunctionUnchecked q r = .ok qr) (h4 : Sys.newConjunctionUnchecked p qr = .ok s') :
    s.ts.Same s'.ts := by
  have gpq := (Accepted.conjunction hp hq h1)
  have gqr := (Accepted.conjunction hq hr h3)
  have e1 : pq.DisjointClocks r := fun i hi => by
    rcases ((isProd_conjunction h1).clocks i).1 hi with hi | hi
    · exact d2 i hi
    · exact d3 i hi
  have e2 : p.DisjointClocks qr := fun i hi hc => by
    rcases ((isProd_conjunction h3).clocks i).1 hc with hc | hc
    · exact d1 i hi hc
    · exact d2 i hi hc
  have hin : ∀ a, a ∈ s.inputs ↔ a ∈ s'.inputs := fun a => by
    rw [conjunction_inputs h2, conjunction_inputs h1, conjunction_inputs h4, conjunction_inputs h3]; tauto
  have hout : ∀ a, a ∈ s.outputs ↔ a ∈ s'.outputs := fun a => by
    rw [conjunction_outputs h2, conjunction_outputs h1, conjunction_outputs h4, conjunction_outputs h3]; tauto
  refine IsProd.assoc_same (isProd_conjunction h1) (isProd_conjunction h2) (isProd_conjunction h3)
    (isProd_conjunction h4) hp.good hq.good hr.good gpq.good gqr.good (Accepted.conjunction gpq hr h2).good
    (Accepted.conjunction hp gqr h4).good d1 d2 d3 (join_conjunction hp.good hq.good d1 h1).initNone
    (join_conjunction gpq.good hr.good e1 h2).initNone (join_conjunction hq.good hr.good d3 h3).initNone
    (join_conjunction hp.good gqr.good e2 h4).initNone hin hout ?_ ?_
  · intro a ha
    rw [hasAction_iff, conjunction_inputs h2, conjunction_outputs h2] at ha
    left
    rw [hasAction_iff]; tauto
  · intro a ha
    rw [hasAction_iff, hin, hout, conjunction_inputs h4, conjunction_outputs h4] at ha
    left
    rw [hasAction_iff]; tauto

/-! ## Cases -/

theorem sysAB_disj79 : sysA.DisjointClocks sysB := by unfold Sys.DisjointClocks; decide +kernel
theorem sysAC_disj79 : sysA.DisjointClocks sysC := by unfold Sys.DisjointClocks; decide +kernel

/-- A third participant that listens to both actions of `A || B`. -/
def exD79 : Component := ⟨"D", ⟨[], [("z", 3)]⟩,
  [⟨"K0", none, .initial, "NORMAL"⟩],
  [⟨"h0", "K0", "K0", .input, none, some [⟨"z", .int 0⟩], "go"⟩, ⟨"h1", "K0", "K0", .input, none, none, "out"⟩]⟩
def sysD79 : Sys Fed4 := .comp (getOk (CompComp.compile id exD79 2) (by decide +kernel))
theorem sysD79_accepted : sysD79.Accepted := .comp (Component.ok_of_okB (by decide)) (fun _ => .refl _) (getOk_eq _)

/-- The hypotheses are met by `A || B` and by `(A || B) || D`, in which all three take part in `go`. -/
example : (∃ s', Sys.newComposition sysB sysA = .ok s' ∧ sysAB.ts.Same s'.ts) ∧
    ∃ s qr s', Sys.newComposition sysAB sysD79 = .ok s ∧ Sys.newComposition sysB sysD79 = .ok qr ∧
      Sys.newComposition sysA qr = .ok s' ∧ s.ts.Same s'.ts := by
  refine ⟨C79_composition_comm sysA_accepted sysB_accepted sysAB_disj79 sysAB_eq, ?_⟩
  have h := getOk_eq (r := Sys.newComposition sysAB sysD79) (by decide +kernel)
  obtain ⟨qr, s', h1, h2, h3⟩ := C79_composition_assoc sysA_accepted sysB_accepted sysD79_accepted sysAB_disj79
    (by unfold Sys.DisjointClocks; decide +kernel) (by unfold Sys.DisjointClocks; decide +kernel) sysAB_eq h
  exact ⟨_, qr, s', h, h1, h2, h3⟩

/-- A third machine, which answers at any time -/
def exE79 : Component := ⟨"E", ⟨[], [("w", 2)]⟩,
  [⟨"K0", none, .initial, "NORMAL"⟩],
  [⟨"h0", "K0", "K0", .input, none, some [⟨"w", .int 0⟩], "go"⟩, ⟨"h1", "K0", "K0", .output, none, none, "out"⟩]⟩
def sysE79 : Sys Fed4 := .comp (getOk (CompComp.compile id exE79 2) (by decide +kernel))
theorem sysE79_accepted : sysE79.Accepted := .comp (Component.ok_of_okB (by decide)) (fun _ => .refl _) (getOk_eq _)

/-- The hypotheses are met by `A && C` and by `(A && C) && E`. -/
example : (∃ s', Sys.newConjunctionUnchecked sysC sysA = .ok s' ∧ sysAC.ts.Same s'.ts) ∧
    ∃ s qr s', Sys.newConjunctionUnchecked sysAC sysE79 = .ok s ∧ Sys.newConjunctionUnchecked sysC sysE79 = .ok qr ∧
      Sys.newConjunctionUnchecked sysA qr = .ok s' ∧ s.hasAction "go" = true ∧ s.ts.Same s'.ts := by
  refine ⟨C79_conjunction_comm sysA_accepted sysC_accepted sysAC_disj79 sysAC_eq, ?_⟩
  have h := getOk_eq (r := Sys.newConjunctionUnchecked sysAC sysE79) (by decide +kernel)
  have h1 := getOk_eq (r := Sys.newConjunctionUnchecked sysC sysE79) (by decide +kernel)
  have h2 := getOk_eq (r := Sys.newConjunctionUnchecked sysA (getOk (Sys.newConjunctionUnchecked sysC sysE79)
    (by decide +kernel))) (by decide +kernel)
  exact ⟨_, _, _, h, h1, h2, by decide +kernel, C79_conjunction_assoc_partial sysA_accepted sysC_accepted sysE79_accepted
    sysAC_disj79 (by unfold Sys.DisjointClocks; decide +kernel) (by unfold Sys.DisjointClocks; decide +kernel)
    sysAC_eq h h1 h2⟩

/-- `A` has the input `a`, `C` the output `a`, and `B` knows neither. -/
def loadThree79 : String → Res Component := fun n =>
  if n = "A" then .ok ⟨"A", ⟨[], []⟩, [⟨"L0", none, .initial, "NORMAL"⟩], [⟨"e0", "L0", "L0", .input, none, none, "a"⟩]⟩
  else if n = "B" then .ok ⟨"B", ⟨[], []⟩, [⟨"L0", none, .initial, "NORMAL"⟩], []⟩
  else if n = "C" then .ok ⟨"C", ⟨[], []⟩, [⟨"L0", none, .initial, "NORMAL"⟩], [⟨"e0", "L0", "L0", .output, none, none, "a"⟩]⟩
  else .error (.err "unknown")

def isYes79 : Res (QueryOutcome FedD) → Bool
  | .ok (.consistency _ none) => true
  | _ => false

def isRefused79 : Res (QueryOutcome FedD) → Bool
  | .error (.err _) => true
  | _ => false

/-- **C79** fails for the order of the operands of more than one conjunction: whether the query is answered depends on
it.  `A && B && C` is consistent, but `A && C && B` is refused, since the directions of actions are compared two operands
at a time and `B` hides that `A` and `C` do not fit. -/
theorem C79_violated_conjunction_order :
    isYes79 ((plainQueries false).answer loadThree79 "consistency: A && B && C".toList) = true ∧
    isRefused79 ((plainQueries false).answer loadThree79 "consistency: A && C && B".toList) = true := by
  constructor <;> decide +kernel

end Reveaal
