import Verif.Props.C39
import Verif.Props.C45
import Verif.Props.C55
import Verif.Spec.Adjoint

/-!
# C63: what a quotient is for

`X` refines `T \\ S` exactly if `S || X` refines `T`.
-/

namespace Reveaal
open ZoneLib
variable {F : Type} [ZoneLib F]

/-- What is used of a quotient `Q = T \\ S`. -/
structure QuotFacts (T S Q : Sys F) (clock : Nat) (fresh : String) : Prop where
  inputs : ∀ a, a ∈ Q.inputs ↔ a ∈ T.inputs ∨ a ∈ S.outputs ∨ a = fresh
  outputs : ∀ a, a ∈ Q.outputs ↔ (a ∈ T.outputs ∧ a ∉ S.outputs) ∨ (a ∈ S.inputs ∧ a ∉ T.inputs)
  apart : ∀ a ∈ S.outputs, a ∉ T.inputs
  freshT : fresh ∉ T.inputs
  freshS : fresh ∉ S.outputs
  init : ∀ lt ls, T.initialLoc = .ok (some lt) → S.initialLoc = .ok (some ls) →
    Q.initialLoc = .ok (some (LocTree.merge lt ls))
  act : ∀ lt ls, T.IsLoc lt → S.IsLoc ls → ∀ a, Q.hasAction a = true → ∀ v, Valid (dim F) v → ∀ x' v',
    (Q.ts.Act (LocTree.merge lt ls) v a x' v' ↔ QuotRule T S clock fresh lt ls v a x' v')
  univ : ∀ a, Q.hasAction a = true → ∀ v, Valid (dim F) v → ∀ x' v',
    (Q.ts.Act LocTree.universalLoc v a x' v' ↔ x' = LocTree.universalLoc ∧ v' = v)
  err : ∀ a, Q.hasAction a = true → ∀ v, Valid (dim F) v → ∀ x' v',
    Q.ts.Act (LocTree.errorLoc clock) v a x' v' → a ∈ Q.inputs
  errDelay : ∀ v, Valid (dim F) v → ∀ d : ℝ, 0 < d → ¬ TS.CanDelay (LocTree.errorLoc clock : LocTree F) v d

open Sys in
theorem Sys.Adjoint.facts {T S X Q P : Sys F} {clock : Nat} (h : Sys.Adjoint T S X Q P clock) :
    ∃ fresh, QuotFacts T S Q clock fresh := by
  obtain ⟨hd, hq⟩ := newQuotient_eq h.quotient
  have hf := freshInput_fresh (setUnion T.inputs S.outputs)
  rw [mem_setUnion, not_or] at hf
  subst hq
  refine ⟨_, ⟨fun a => ?_, fun a => ?_, hd, hf.1, hf.2, fun lt ls h1 h2 => ?_,
    fun lt ls hlt hls a ha v hv x' v' => quotient_moves h.acceptedT h.acceptedS h.clockPos h.clockDim
      h.clocksTS hlt hls ha (fun ts hts => h.calmT lt a ts hlt hts) (fun ts hts => h.calmS ls a ts hls hts) hv,
    fun a ha v hv x' v' => C39_universal ha hv x' v', fun a ha v hv x' v' hact => ?_,
    fun v hv d hd => ?_⟩⟩
  · rw [inputs_quotient, mem_setUnion, mem_setUnion]; simp [or_assoc]
  · rw [outputs_quotient, mem_setUnion, mem_setDiff, mem_setDiff]
  · unfold Sys.initialLoc; rw [h1, h2]; rfl
  · exact (((C39_error h.clockPos h.clockDim ha hv x' v').1).1 hact).1
  · rintro ⟨_, h1⟩
    have h1 := ((invSet_errorLoc h.clockPos h.clockDim).1 (h1 d hd.le le_rfl)).2
    unfold delay at h1
    rw [if_pos ⟨h.clockPos, h.clockDim⟩] at h1
    have := hv.2.1 clock
    linarith

/-- A location of a quotient made of two locations. -/
abbrev IsMerge (x a b : LocTree F) : Prop := x = LocTree.merge a b

namespace Located
variable {T S Q : Sys F} {clock : Nat} {fresh : String} {m lt ls : LocTree F} {w vt vs : Val}

theorem invT (h : Located T S IsMerge m w lt vt ls vs) (hT : T.Good) : w ∈ InvSet lt ↔ vt ∈ InvSet lt :=
  ⟨hT.invLocal lt h.left _ _ h.valid h.validL h.agreeL,
    hT.invLocal lt h.left _ _ h.validL h.valid fun i hi => (h.agreeL i hi).symm⟩

theorem invS (h : Located T S IsMerge m w lt vt ls vs) (hS : S.Good) : w ∈ InvSet ls ↔ vs ∈ InvSet ls :=
  ⟨hS.invLocal ls h.right _ _ h.valid h.validR h.agreeR,
    hS.invLocal ls h.right _ _ h.validR h.valid fun i hi => (h.agreeR i hi).symm⟩

theorem canDoT (h : Located T S IsMerge m w lt vt ls vs) (hT : T.Good) {a : String} :
    T.CanDo lt w a ↔ T.CanDo lt vt a := by
  unfold Sys.CanDo
  rw [h.invT hT]
  refine and_congr_right fun _ => ⟨?_, ?_⟩
  · rintro ⟨l', v', e⟩
    obtain ⟨w', e', _⟩ := Sys.act_transport hT h.left h.valid h.validL h.agreeL e
    exact ⟨_, _, e'⟩
  · rintro ⟨l', v', e⟩
    obtain ⟨w', e', _⟩ := Sys.act_transport hT h.left h.validL h.valid (fun i hi => (h.agreeL i hi).symm) e
    exact ⟨_, _, e'⟩

theorem canDoS (h : Located T S IsMerge m w lt vt ls vs) (hS : S.Good) {a : String} :
    S.CanDo ls w a ↔ S.CanDo ls vs a := by
  unfold Sys.CanDo
  rw [h.invS hS]
  refine and_congr_right fun _ => ⟨?_, ?_⟩
  · rintro ⟨l', v', e⟩
    obtain ⟨w', e', _⟩ := Sys.act_transport hS h.right h.valid h.validR h.agreeR e
    exact ⟨_, _, e'⟩
  · rintro ⟨l', v', e⟩
    obtain ⟨w', e', _⟩ := Sys.act_transport hS h.right h.validR h.valid (fun i hi => (h.agreeR i hi).symm) e
    exact ⟨_, _, e'⟩

/-- Both operands perform the action. -/
theorem quot_joint (h : Located T S IsMerge m w lt vt ls vs) (f : QuotFacts T S Q clock fresh)
    (hT : T.Good) (hS : S.Good) (hdis : T.DisjointClocks S) {a : String} (ha : Q.hasAction a = true)
    {lt' ls' : LocTree F} {vt' vs' : Val} (it : vt ∈ InvSet lt) (is : vs ∈ InvSet ls)
    (et : T.ts.Act lt vt a lt' vt') (es : S.ts.Act ls vs a ls' vs') :
    ∃ m' w', Q.ts.Act m w a m' w' ∧ Located T S IsMerge m' w' lt' vt' ls' vs' := by
  obtain ⟨wt, et', gt⟩ := Sys.act_transport hT h.left h.validL h.valid (fun i hi => (h.agreeL i hi).symm) et
  obtain ⟨ws, es', gs⟩ := Sys.act_transport hS h.right h.validR h.valid (fun i hi => (h.agreeR i hi).symm) es
  classical
  let w' : Val := fun i => if i ∈ T.clocks then wt i else ws i
  have h1 : ∀ i ∈ T.clocks, w' i = wt i := fun i hi => by simp [w', hi]
  have h2 : ∀ i ∈ S.clocks, w' i = ws i := fun i hi => by
    have : i ∉ T.clocks := fun hc => hdis i hc hi
    simp [w', this]
  have h3 : ∀ i, i ∉ T.clocks → i ∉ S.clocks → w' i = w i := fun i hi hi' => by
    simp only [w', hi, if_false]
    exact Sys.act_untouched hS h.right es' i hi'
  have vT := Sys.act_valid hT h.left h.valid et'
  have vS := Sys.act_valid hS h.right h.valid es'
  refine ⟨LocTree.merge lt' ls', w', ?_, rfl, vT.1, vS.1, ⟨?_, fun i => ?_, fun i hi => ?_⟩,
    (Sys.act_valid hT h.left h.validL et).2, (Sys.act_valid hS h.right h.validR es).2,
    fun i hi => (h1 i hi).trans (gt i hi).symm, fun i hi => (h2 i hi).trans (gs i hi).symm⟩
  · have := h.loc; subst this
    exact (f.act lt ls h.left h.right a ha w h.valid _ _).2
      (.joint ((h.invT hT).2 it) ((h.invS hS).2 is) et' es' h1 h2 h3)
  · simp only [w']; split
    · exact vT.2.1
    · exact vS.2.1
  · simp only [w']; split
    · exact vT.2.2.1 i
    · exact vS.2.2.1 i
  · simp only [w']; split
    · exact vT.2.2.2 i hi
    · exact vS.2.2.2 i hi

/-- Only `S` knows the action. -/
theorem quot_onlyS (h : Located T S IsMerge m w lt vt ls vs) (f : QuotFacts T S Q clock fresh)
    (hS : S.Good) (hdis : T.DisjointClocks S) {a : String} (ha : Q.hasAction a = true)
    {ls' : LocTree F} {vs' : Val} (hn : T.hasAction a = false) (is : vs ∈ InvSet ls)
    (es : S.ts.Act ls vs a ls' vs') :
    ∃ m' w', Q.ts.Act m w a m' w' ∧ Located T S IsMerge m' w' lt vt ls' vs' := by
  obtain ⟨ws, es', gs⟩ := Sys.act_transport hS h.right h.validR h.valid (fun i hi => (h.agreeR i hi).symm) es
  have vS := Sys.act_valid hS h.right h.valid es'
  refine ⟨LocTree.merge lt ls', ws, ?_, rfl, h.left, vS.1, vS.2, h.validL,
    (Sys.act_valid hS h.right h.validR es).2, fun i hi => ?_, fun i hi => (gs i hi).symm⟩
  · have := h.loc; subst this
    exact (f.act lt ls h.left h.right a ha w h.valid _ _).2 (.onlyS hn ((h.invS hS).2 is) es')
  · rw [Sys.act_untouched hS h.right es' i (hdis i hi)]; exact h.agreeL i hi

/-- Only `T` knows the action. -/
theorem quot_onlyT (h : Located T S IsMerge m w lt vt ls vs) (f : QuotFacts T S Q clock fresh)
    (hT : T.Good) (hS : S.Good) (hdis : T.DisjointClocks S) {a : String} (ha : Q.hasAction a = true)
    {lt' : LocTree F} {vt' : Val} (hn : S.hasAction a = false) (it : vt ∈ InvSet lt) (is : vs ∈ InvSet ls)
    (et : T.ts.Act lt vt a lt' vt') :
    ∃ m' w', Q.ts.Act m w a m' w' ∧ Located T S IsMerge m' w' lt' vt' ls vs := by
  obtain ⟨wt, et', gt⟩ := Sys.act_transport hT h.left h.validL h.valid (fun i hi => (h.agreeL i hi).symm) et
  have vT := Sys.act_valid hT h.left h.valid et'
  refine ⟨LocTree.merge lt' ls, wt, ?_, rfl, vT.1, h.right, vT.2, (Sys.act_valid hT h.left h.validL et).2,
    h.validR, fun i hi => (gt i hi).symm, fun i hi => ?_⟩
  · have := h.loc; subst this
    exact (f.act lt ls h.left h.right a ha w h.valid _ _).2
      (.onlyT hn ((h.invT hT).2 it) ((h.invS hS).2 is) et')
  · rw [Sys.act_untouched hT h.left et' i fun hc => hdis i hc hi]; exact h.agreeR i hi

/-- What a move of the quotient means for its operands. -/
theorem quot_cases (h : Located T S IsMerge m w lt vt ls vs) (f : QuotFacts T S Q clock fresh)
    (hT : T.Good) (hS : S.Good) (hdis : T.DisjointClocks S) (h0 : 0 < clock) (hn : clock < dim F)
    {a : String} {m' : LocTree F} {w' : Val} (hact : Q.ts.Act m w a m' w') :
    (∃ lt' vt' ls' vs', T.ts.Act lt vt a lt' vt' ∧ S.ts.Act ls vs a ls' vs' ∧ vs ∈ InvSet ls ∧
      Located T S IsMerge m' w' lt' vt' ls' vs') ∨
    (∃ ls' vs', T.hasAction a = false ∧ S.ts.Act ls vs a ls' vs' ∧ vs ∈ InvSet ls ∧
      Located T S IsMerge m' w' lt vt ls' vs') ∨
    (∃ lt' vt', S.hasAction a = false ∧ T.ts.Act lt vt a lt' vt' ∧ vs ∈ InvSet ls ∧
      Located T S IsMerge m' w' lt' vt' ls vs) ∨
    (m' = LocTree.universalLoc ∧ w' = w ∧ (vs ∉ InvSet ls ∨ (a ∈ S.outputs ∧ ¬ S.CanDo ls vs a))) ∨
    (m' = LocTree.errorLoc clock ∧ Valid (dim F) w' ∧ a ∈ S.outputs ∧ a ∈ T.outputs ∧ S.CanDo ls vs a ∧
      ¬ T.CanDo lt vt a) ∨
    (m' = LocTree.errorLoc clock ∧ Valid (dim F) w' ∧ a = fresh ∧ vt ∉ InvSet lt ∧ vs ∈ InvSet ls) := by
  have hm := h.loc; subst hm
  have rule := (f.act lt ls h.left h.right a hact.1 w h.valid _ _).1 hact
  have hverr : Valid (dim F) (assign w clock 0) := assign_valid h.valid h0 hn (by simp)
  cases rule with
  | @joint lt' ls' wt ws _ i1 i2 mt ms ct cs cr =>
    obtain ⟨vt', et, gt⟩ := Sys.act_transport hT h.left h.valid h.validL h.agreeL mt
    obtain ⟨vs', es, gs⟩ := Sys.act_transport hS h.right h.valid h.validR h.agreeR ms
    obtain ⟨m1, w1, e1, l1⟩ := h.quot_joint f hT hS hdis hact.1 ((h.invT hT).1 i1) ((h.invS hS).1 i2) et es
    refine .inl ⟨_, vt', _, vs', et, es, (h.invS hS).1 i2, rfl, l1.left, l1.right, ?_, l1.validL, l1.validR,
      fun i hi => (ct i hi).trans (gt i hi), fun i hi => (cs i hi).trans (gs i hi)⟩
    have vT := (Sys.act_valid hT h.left h.valid mt).2
    have vS := (Sys.act_valid hS h.right h.valid ms).2
    have key : ∀ i, w' i = (if i ∈ T.clocks then wt i else ws i) := fun i => by
      by_cases hi : i ∈ T.clocks
      · rw [if_pos hi]; exact ct i hi
      · rw [if_neg hi]
        by_cases hi' : i ∈ S.clocks
        · exact cs i hi'
        · rw [cr i hi hi']; exact (Sys.act_untouched hS h.right ms i hi').symm
    refine ⟨?_, fun i => ?_, fun i hi => ?_⟩
    · rw [key]; split
      · exact vT.1
      · exact vS.1
    · rw [key]; split
      · exact vT.2.1 i
      · exact vS.2.1 i
    · rw [key]; split
      · exact vT.2.2 i hi
      · exact vS.2.2 i hi
  | onlyS hno i2 ms =>
    obtain ⟨vs', es, gs⟩ := Sys.act_transport hS h.right h.valid h.validR h.agreeR ms
    have vS := Sys.act_valid hS h.right h.valid ms
    exact .inr (.inl ⟨_, vs', hno, es, (h.invS hS).1 i2, rfl, h.left, vS.1, vS.2, h.validL,
      (Sys.act_valid hS h.right h.validR es).2,
      fun i hi => (by rw [Sys.act_untouched hS h.right ms i (hdis i hi)]; exact h.agreeL i hi), gs⟩)
  | onlyT hno i1 i2 mt =>
    obtain ⟨vt', et, gt⟩ := Sys.act_transport hT h.left h.valid h.validL h.agreeL mt
    have vT := Sys.act_valid hT h.left h.valid mt
    exact .inr (.inr (.inl ⟨_, vt', hno, et, (h.invS hS).1 i2, rfl, vT.1, h.right, vT.2,
      (Sys.act_valid hT h.left h.validL et).2, h.validR, gt,
      fun i hi => (by rw [Sys.act_untouched hT h.left mt i fun hc => hdis i hc hi]; exact h.agreeR i hi)⟩))
  | universal hu =>
    exact .inr (.inr (.inr (.inl ⟨rfl, rfl, by rwa [← h.invS hS, ← h.canDoS hS]⟩)))
  | errorOutput h1 h2 h3 h4 =>
    exact .inr (.inr (.inr (.inr (.inl ⟨rfl, hverr, h1, h2, (h.canDoS hS).1 h3,
      fun hc => h4 ((h.canDoT hT).2 hc)⟩))))
  | errorDelay h1 h2 h3 =>
    exact .inr (.inr (.inr (.inr (.inr ⟨rfl, hverr, h1, fun hc => h2 ((h.invT hT).2 hc), (h.invS hS).1 h3⟩))))

end Located

/-- The alphabets of `T`, `S`, `X`, `Q = T \\ S` and `P = S || X`. -/
structure AdjAlphabets (T S X Q P : Sys F) (fresh : String) : Prop where
  inP : ∀ a, a ∈ P.inputs ↔ (a ∈ S.inputs ∧ a ∉ X.outputs) ∨ (a ∈ X.inputs ∧ a ∉ S.outputs)
  outP : ∀ a, a ∈ P.outputs ↔ a ∈ S.outputs ∨ a ∈ X.outputs
  outs : ∀ a ∈ S.outputs, a ∉ X.outputs
  ownT : T.hasAction fresh = false
  ownS : S.hasAction fresh = false
  ownX : X.hasAction fresh = false

theorem Sys.Adjoint.alphabets {T S X Q P : Sys F} {clock : Nat} {fresh : String}
    (h : Sys.Adjoint T S X Q P clock) (f : QuotFacts T S Q clock fresh) :
    AdjAlphabets T S X Q P fresh := by
  obtain ⟨h1, h2, h3⟩ := h.own fresh ((f.inputs fresh).2 (.inr (.inr rfl))) f.freshT f.freshS
  obtain ⟨hd, hp⟩ := Sys.newComposition_eq h.composition
  refine ⟨fun a => ?_, fun a => ?_, hd, h1, h2, h3⟩
  · rw [hp, Sys.inputs_composition, mem_mkSet]
    simp only [List.mem_append, List.mem_filter, Bool.not_eq_true', List.contains_eq_mem,
      decide_eq_false_iff_not]
  · rw [hp, Sys.outputs_composition, mem_setUnion]

omit [ZoneLib F] in
theorem Sys.not_known {x : Sys F} {a : String} (h1 : a ∉ x.inputs) (h2 : a ∉ x.outputs) :
    x.hasAction a = false := by
  rw [← Bool.not_eq_true, Sys.hasAction_iff]; tauto

omit [ZoneLib F] in
theorem Sys.known_not {x : Sys F} {a : String} (h : x.hasAction a = false) :
    a ∉ x.inputs ∧ a ∉ x.outputs :=
  ⟨fun hc => (by rw [Sys.hasAction_of_input hc] at h; cases h),
    fun hc => (by rw [Sys.hasAction_of_output hc] at h; cases h)⟩

theorem Located.canDelay_merge {T S : Sys F} {m lt ls : LocTree F} {w vt vs : Val}
    (h : Located T S IsMerge m w lt vt ls vs) {d : ℝ} (hd : 0 ≤ d) : TS.CanDelay m w d := by
  have := h.loc; subst this
  exact ⟨hd, fun d' _ _ i hi => by cases hi⟩

/-- If `X` refines `T \\ S` then `S || X` refines `T`: for every deterministic `X` that never gets stuck
and produces no outputs unknown to both, and every deterministic `S` that accepts all its inputs. -/
theorem C63_sound_partial (T S X Q P : Sys F) (clock : Nat) (h : Sys.Adjoint T S X Q P clock)
    (hdetS : S.ts.Deterministic) (henS : S.ts.InputEnabled) (hdetX : X.ts.Deterministic)
    (hstuck : X.ts.NeverStuck) (houtX : ∀ a ∈ X.outputs, T.hasAction a = true ∨ S.hasAction a = true)
    (hX : Refines X.ts Q.ts) : Refines P.ts T.ts := by
  obtain ⟨fresh, f⟩ := h.facts
  have al := h.alphabets f
  have gT := h.acceptedT.good
  have gS := h.acceptedS.good
  have gX := h.acceptedX.good
  have gP : P.Good := (Sys.Accepted.composition h.acceptedS h.acceptedX h.composition).good
  have j := Sys.join_composition gS gX h.clocksSX h.composition
  have hdis' : X.DisjointClocks S := fun i h1 h2 => h.clocksSX i h2 h1
  have a1 : ∀ a ∈ X.inputs, a ∉ Q.outputs := hX.alphabets.inOut
  have a2 : ∀ a ∈ X.outputs, a ∉ Q.inputs := hX.alphabets.outIn
  have a3 : ∀ a ∈ X.inputs, a ∈ Q.inputs := hX.alphabets.inputs
  have a4 : ∀ a ∈ Q.outputs, a ∈ X.outputs := hX.alphabets.outputs
  have xT : ∀ a ∈ X.outputs, a ∉ T.inputs := fun a ha hc => a2 a ha ((f.inputs a).2 (.inl hc))
  have xS : ∀ a ∈ X.outputs, a ∉ S.outputs := fun a ha hc => al.outs a hc ha
  have xQ : ∀ a ∈ X.outputs, a ∈ Q.outputs := fun a ha => by
    rw [f.outputs]
    rcases houtX a ha with hc | hc <;> rcases Sys.hasAction_iff.1 hc with hc | hc
    · exact absurd hc (xT a ha)
    · exact .inl ⟨hc, xS a ha⟩
    · exact .inr ⟨hc, xT a ha⟩
    · exact absurd hc (xS a ha)
  refine ⟨⟨fun a ha hc => ?_, fun a ha hc => ?_, fun a ha => ?_, fun a ha => ?_⟩, ?_⟩
  · rcases (al.inP a).1 ha with ⟨h1, h2⟩ | ⟨h1, h2⟩
    · exact h2 (a4 a ((f.outputs a).2 (.inl ⟨hc, h.inOutS a h1⟩)))
    · exact a1 a h1 ((f.outputs a).2 (.inl ⟨hc, h2⟩))
  · rcases (al.outP a).1 ha with h1 | h1
    · exact f.apart a h1 hc
    · exact xT a h1 hc
  · rcases (al.inP a).1 ha with ⟨h1, h2⟩ | ⟨h1, h2⟩
    · by_contra hc
      exact h2 (a4 a ((f.outputs a).2 (.inr ⟨h1, hc⟩)))
    · rcases (f.inputs a).1 (a3 a h1) with hc | hc | rfl
      · exact hc
      · exact absurd hc h2
      · exact absurd h1 (Sys.known_not al.ownX).1
  · rw [show P.ts.outputs = P.outputs from rfl, al.outP]
    by_cases hc : a ∈ S.outputs
    · exact .inl hc
    · exact .inr (a4 a ((f.outputs a).2 (.inl ⟨ha, hc⟩)))
  obtain ⟨lt0, it0⟩ := h.initT
  obtain ⟨ls0, is0, zs0⟩ := h.initS
  have hQ0 := f.init _ _ it0 is0
  right
  rcases hX.states with ⟨_, hc⟩ | ⟨x0, m0, ix0, im0, g⟩
  · have hc : Q.initialLoc = _ := hc
    rw [hQ0] at hc; cases hc
  have ix0 : X.initialLoc = _ := ix0
  have im0 : Q.initialLoc = _ := im0
  rw [hQ0] at im0; cases im0
  obtain ⟨op, hop, _⟩ := gP.initial
  cases op with
  | none =>
    rcases j.initNone hop with hc | hc
    · rw [is0] at hc; cases hc
    · rw [ix0] at hc; cases hc
  | some p0 =>
  obtain ⟨ls1, x1, e1, e2, hp0⟩ := j.init p0 hop
  rw [is0] at e1; cases e1
  rw [ix0] at e2; cases e2
  refine ⟨p0, lt0, hop, it0, fun hz => ?_⟩
  have hz' := (j.inv hp0).1 hz
  obtain ⟨R, hR, r0⟩ := g hz'.2
  -- `X` is never related to the error location
  have noErr : ∀ {x vx w}, X.ts.Reach x vx → Valid (dim F) w → R x vx (LocTree.errorLoc clock) w → False := by
    intro x vx w rx hw r
    rcases hstuck x vx rx with hd | ⟨d, hd, o, ho, x', v', e⟩
    · exact f.errDelay w hw 1 one_pos (hR.delay r (hd 1 zero_le_one)).1
    · rcases hd.1.lt_or_eq with hpos | rfl
      · exact f.errDelay w hw d hpos (hR.delay r hd).1
      · rw [delay_zero] at e
        obtain ⟨m', w', e', _⟩ := (hR.output r ho e).1 (xQ o ho)
        exact a2 o ho (f.err o e'.1 w hw _ _ e')
  -- hence `T` keeps its invariant as long as `S` does
  have invT : ∀ {x vx m w lt vt ls vs}, X.ts.Reach x vx → Located T S IsMerge m w lt vt ls vs →
      vs ∈ InvSet ls → R x vx m w → vt ∈ InvSet lt := by
    intro x vx m w lt vt ls vs rx l is r
    by_contra hc
    have hin : fresh ∈ Q.inputs := (f.inputs fresh).2 (.inr (.inr rfl))
    have hm := l.loc; subst hm
    have e := (f.act lt ls l.left l.right fresh (Sys.hasAction_of_input hin) w l.valid _ _).2
      (.errorDelay rfl (fun hc' => hc ((l.invT gT).1 hc')) ((l.invS gS).2 is))
    exact noErr rx (assign_valid l.valid h.clockPos h.clockDim (by simp))
      ((hR.input r hin e).2 (Sys.known_not al.ownX).1)
  refine ⟨fun p y lt vt => ∃ ls vs x vx m w, R x vx m w ∧ S.ts.Reach ls vs ∧ X.ts.Reach x vx ∧ P.IsLoc p ∧
    Located S X (fun x a b => LocTree.compose a b .composition = .ok x) p y ls vs x vx ∧
    Located T S IsMerge m w lt vt ls vs, ⟨?_, ?_, ?_⟩,
    ls0, zeroVal, x0, zeroVal, _, zeroVal, r0, .init is0 zs0, .init ix0 hz'.2, Sys.initial_isLoc gP hop,
    ⟨hp0, Sys.initial_isLoc gS is0, Sys.initial_isLoc gX ix0, Sys.zeroVal_valid, Sys.zeroVal_valid,
      Sys.zeroVal_valid, fun _ _ => rfl, fun _ _ => rfl⟩,
    ⟨rfl, Sys.initial_isLoc gT it0, Sys.initial_isLoc gS is0, Sys.zeroVal_valid, Sys.zeroVal_valid,
      Sys.zeroVal_valid, fun _ _ => rfl, fun _ _ => rfl⟩⟩
  · rintro p y lt vt o p' y' ⟨ls, vs, x, vx, m, w, r, rs, rx, lp, l1, l2⟩ hop hact
    have lp' := (Sys.act_valid gP lp l1.valid hact).1
    have is := Sys.Reach.inv rs
    have it := invT rx l2 is r
    rcases (al.outP o).1 hop with hoS | hoX
    · -- an output of `S`: an input of the quotient, which `X` follows or does not know
      have hoX : o ∉ X.outputs := al.outs o hoS
      have hoT : o ∉ T.inputs := f.apart o hoS
      have hoQ : o ∈ Q.inputs := (f.inputs o).2 (.inr (.inl hoS))
      have hkQ := Sys.hasAction_of_input hoQ
      obtain ⟨ls', vs', x', vx', es, l1', rx', hfol⟩ : ∃ ls' vs' x' vx', S.ts.Act ls vs o ls' vs' ∧
          Located S X (fun x a b => LocTree.compose a b .composition = .ok x) p' y' ls' vs' x' vx' ∧
          X.ts.Reach x' vx' ∧ ∀ {m' w'}, Q.ts.Act m w o m' w' → R x' vx' m' w' := by
        by_cases hiX : o ∈ X.inputs
        · obtain ⟨ls', vs', x', vx', es, ex, l1'⟩ := l1.act_both j gP gS gX lp hact
            (Sys.hasAction_of_output hoS) (Sys.hasAction_of_input hiX)
          refine ⟨ls', vs', x', vx', es, l1', .act rx ex, fun e => ?_⟩
          obtain ⟨x1, v1, e', r'⟩ := (hR.input r hoQ e).1 hiX
          obtain ⟨rfl, rfl⟩ := Sys.act_unique hdetX rx ex e'
          exact r'
        · obtain ⟨ls', vs', es, _, l1'⟩ := l1.act_left j gP gS gX lp hact
            (Sys.hasAction_of_output hoS) (Sys.not_known hiX hoX)
          exact ⟨ls', vs', x, vx, es, l1', rx, fun e => (hR.input r hoQ e).2 hiX⟩
      refine ⟨fun hoT' => ?_, fun hoT' => ?_⟩
      · by_cases hcan : T.CanDo lt vt o
        · obtain ⟨_, lt', vt', et⟩ := hcan
          obtain ⟨m', w', e, l2'⟩ := l2.quot_joint f gT gS h.clocksTS hkQ it is et es
          exact ⟨lt', vt', et, ls', vs', x', vx', m', w', hfol e, .act rs es, rx', lp', l1', l2'⟩
        · exfalso
          have hm := l2.loc; subst hm
          have e := (f.act lt ls l2.left l2.right o hkQ w l2.valid _ _).2
            (.errorOutput hoS hoT' ((l2.canDoS gS).2 ⟨is, _, _, es⟩) fun hc => hcan ((l2.canDoT gT).1 hc))
          exact noErr rx' (assign_valid l2.valid h.clockPos h.clockDim (by simp)) (hfol e)
      · obtain ⟨m', w', e, l2'⟩ := l2.quot_onlyS f gS h.clocksTS hkQ (Sys.not_known hoT hoT') is es
        exact ⟨ls', vs', x', vx', m', w', hfol e, .act rs es, rx', lp', l1', l2'⟩
    · -- an output of `X`: an output of the quotient
      have hoS : o ∉ S.outputs := xS o hoX
      have hoT : o ∉ T.inputs := xT o hoX
      obtain ⟨ls', vs', x', vx', rs', ex, l1', hS1, hS2⟩ : ∃ ls' vs' x' vx', S.ts.Reach ls' vs' ∧
          X.ts.Act x vx o x' vx' ∧
          Located S X (fun x a b => LocTree.compose a b .composition = .ok x) p' y' ls' vs' x' vx' ∧
          (∀ {l v}, S.ts.Act ls vs o l v → l = ls' ∧ v = vs') ∧
          (S.hasAction o = false → ls' = ls ∧ vs' = vs) := by
        by_cases hiS : o ∈ S.inputs
        · obtain ⟨ls', vs', x', vx', es, ex, l1'⟩ := l1.act_both j gP gS gX lp hact
            (Sys.hasAction_of_input hiS) (Sys.hasAction_of_output hoX)
          exact ⟨ls', vs', x', vx', .act rs es, ex, l1', fun e => Sys.act_unique hdetS rs e es,
            fun hc => absurd hiS (Sys.known_not hc).1⟩
        · obtain ⟨x', vx', ex, _, l1'⟩ := l1.swap.act_left j.swap gP gX gS lp hact
            (Sys.hasAction_of_output hoX) (Sys.not_known hiS hoS)
          refine ⟨ls, vs, x', vx', rs, ex, l1'.swap, fun e => ?_, fun _ => ⟨rfl, rfl⟩⟩
          have := e.1
          change S.hasAction o = true at this
          rw [Sys.not_known hiS hoS] at this; cases this
      obtain ⟨m', w', e, r'⟩ := (hR.output r hoX ex).1 (xQ o hoX)
      have rx' : X.ts.Reach x' vx' := .act rx ex
      rcases l2.quot_cases f gT gS h.clocksTS h.clockPos h.clockDim e with
        ⟨lt', vt', l, v, et, es, _, l2'⟩ | ⟨l, v, hn, es, _, l2'⟩ | ⟨lt', vt', hn, et, _, l2'⟩ |
        ⟨_, _, hc | hc⟩ | ⟨_, _, hc, _⟩ | ⟨_, _, rfl, _⟩
      · obtain ⟨rfl, rfl⟩ := hS1 es
        refine ⟨fun _ => ⟨lt', vt', et, l, v, x', vx', m', w', r', rs', rx', lp', l1', l2'⟩, fun hn => ?_⟩
        have := et.1
        change T.hasAction o = true at this
        rw [Sys.not_known hoT hn] at this; cases this
      · obtain ⟨rfl, rfl⟩ := hS1 es
        exact ⟨fun hc => absurd hc (Sys.known_not hn).2,
          fun _ => ⟨l, v, x', vx', m', w', r', rs', rx', lp', l1', l2'⟩⟩
      · obtain ⟨rfl, rfl⟩ := hS2 hn
        refine ⟨fun _ => ⟨lt', vt', et, _, _, x', vx', m', w', r', rs', rx', lp', l1', l2'⟩, fun hn => ?_⟩
        have := et.1
        change T.hasAction o = true at this
        rw [Sys.not_known hoT hn] at this; cases this
      · exact absurd is hc
      · exact absurd hc.1 hoS
      · exact absurd hc hoS
      · exact absurd hoX (Sys.known_not al.ownX).2
  · rintro p y lt vt i lt' vt' ⟨ls, vs, x, vx, m, w, r, rs, rx, lp, l1, l2⟩ hiT et
    have is := Sys.Reach.inv rs
    have ix := Sys.Reach.inv rx
    have it := invT rx l2 is r
    have hiT : i ∈ T.inputs := hiT
    have hiX : i ∉ X.outputs := fun hc => xT i hc hiT
    have hiS : i ∉ S.outputs := fun hc => f.apart i hc hiT
    have hiQ : i ∈ Q.inputs := (f.inputs i).2 (.inl hiT)
    have hkQ := Sys.hasAction_of_input hiQ
    by_cases his : i ∈ S.inputs
    · obtain ⟨ls', vs', es⟩ := henS ls vs rs i his
      obtain ⟨m', w', e, l2'⟩ := l2.quot_joint f gT gS h.clocksTS hkQ it is et es
      have hiP : i ∈ P.inputs := (al.inP i).2 (.inl ⟨his, hiX⟩)
      refine ⟨fun _ => ?_, fun hn => absurd hiP hn⟩
      by_cases hix : i ∈ X.inputs
      · obtain ⟨x', vx', ex, r'⟩ := (hR.input r hiQ e).1 hix
        obtain ⟨p', y', ep, l1'⟩ := l1.sync j gP gS gX h.clocksSX lp (Sys.hasAction_of_input hiP) es ex
        exact ⟨p', y', ep, ls', vs', x', vx', m', w', r', .act rs es, .act rx ex,
          (Sys.act_valid gP lp l1.valid ep).1, l1', l2'⟩
      · obtain ⟨p', y', ep, l1'⟩ := l1.alone j gP gS gX h.clocksSX lp (Sys.hasAction_of_input hiP) es
          (Sys.not_known hix hiX) ix
        exact ⟨p', y', ep, ls', vs', x, vx, m', w', (hR.input r hiQ e).2 hix, .act rs es, rx,
          (Sys.act_valid gP lp l1.valid ep).1, l1', l2'⟩
    · obtain ⟨m', w', e, l2'⟩ := l2.quot_onlyT f gT gS h.clocksTS hkQ (Sys.not_known his hiS) it is et
      by_cases hix : i ∈ X.inputs
      · have hiP : i ∈ P.inputs := (al.inP i).2 (.inr ⟨hix, hiS⟩)
        refine ⟨fun _ => ?_, fun hn => absurd hiP hn⟩
        obtain ⟨x', vx', ex, r'⟩ := (hR.input r hiQ e).1 hix
        obtain ⟨p', y', ep, l1'⟩ := l1.swap.alone j.swap gP gX gS hdis' lp (Sys.hasAction_of_input hiP) ex
          (Sys.not_known his hiS) is
        exact ⟨p', y', ep, ls, vs, x', vx', m', w', r', rs, .act rx ex,
          (Sys.act_valid gP lp l1.valid ep).1, l1'.swap, l2'⟩
      · refine ⟨fun hc => ?_, fun _ => ⟨ls, vs, x, vx, m', w', (hR.input r hiQ e).2 hix, rs, rx, lp, l1, l2'⟩⟩
        rcases (al.inP i).1 hc with hc | hc
        · exact absurd hc.1 his
        · exact absurd hc.1 hix
  · rintro p y lt vt d ⟨ls, vs, x, vx, m, w, r, rs, rx, lp, l1, l2⟩ hd
    obtain ⟨ds, dx⟩ := (l1.canDelay j gS gX).1 hd
    refine ⟨⟨hd.1, fun d' h1 h2 => ?_⟩, ls, _, x, _, m, _, (hR.delay r dx).2, .delay rs ds, .delay rx dx,
      lp, l1.delayed hd.1, l2.delayed hd.1⟩
    have ds' : TS.CanDelay ls vs d' := ⟨h1, fun e g1 g2 => ds.2 e g1 (g2.trans h2)⟩
    have dx' : TS.CanDelay x vx d' := ⟨h1, fun e g1 g2 => dx.2 e g1 (g2.trans h2)⟩
    exact invT (.delay rx dx') (l2.delayed h1) (Sys.Reach.inv (.delay rs ds')) (hR.delay r dx').2

/-- If `S || X` refines `T` then `X` refines `T \\ S`: for every `X` that accepts all its inputs, every
deterministic `S` that accepts all its inputs and has invariants convex in time, and every deterministic
`T`. -/
theorem C63_complete_partial (T S X Q P : Sys F) (clock : Nat) (h : Sys.Adjoint T S X Q P clock)
    (hdetS : S.ts.Deterministic) (henS : S.ts.InputEnabled) (hconv : ∀ l, S.IsLoc l → TimeConvex l)
    (hdetT : T.ts.Deterministic) (henX : X.ts.InputEnabled)
    (hP : Refines P.ts T.ts) : Refines X.ts Q.ts := by
  obtain ⟨fresh, f⟩ := h.facts
  have al := h.alphabets f
  have gT := h.acceptedT.good
  have gS := h.acceptedS.good
  have gX := h.acceptedX.good
  have gP : P.Good := (Sys.Accepted.composition h.acceptedS h.acceptedX h.composition).good
  have j := Sys.join_composition gS gX h.clocksSX h.composition
  have hdis' : X.DisjointClocks S := fun i h1 h2 => h.clocksSX i h2 h1
  have b1 : ∀ a ∈ P.inputs, a ∉ T.outputs := hP.alphabets.inOut
  have b2 : ∀ a ∈ P.outputs, a ∉ T.inputs := hP.alphabets.outIn
  have b3 : ∀ a ∈ P.inputs, a ∈ T.inputs := hP.alphabets.inputs
  have b4 : ∀ a ∈ T.outputs, a ∈ P.outputs := hP.alphabets.outputs
  have xP : ∀ a ∈ X.outputs, a ∈ P.outputs := fun a ha => (al.outP a).2 (.inr ha)
  have sP : ∀ a ∈ S.outputs, a ∈ P.outputs := fun a ha => (al.outP a).2 (.inl ha)
  have xT : ∀ a ∈ X.outputs, a ∉ T.inputs := fun a ha => b2 a (xP a ha)
  have xS : ∀ a ∈ X.outputs, a ∉ S.outputs := fun a ha hc => al.outs a hc ha
  refine ⟨⟨fun a ha hc => ?_, fun a ha hc => ?_, fun a ha => ?_, fun a ha => ?_⟩, ?_⟩
  · have ha : a ∈ X.inputs := ha
    rcases (f.outputs a).1 hc with ⟨h1, h2⟩ | ⟨h1, h2⟩
    · exact b1 a ((al.inP a).2 (.inr ⟨ha, h2⟩)) h1
    · exact h2 (b3 a ((al.inP a).2 (.inl ⟨h1, h.inOutX a ha⟩)))
  · rcases (f.inputs a).1 hc with hc | hc | rfl
    · exact xT a ha hc
    · exact xS a ha hc
    · exact (Sys.known_not al.ownX).2 ha
  · rw [show Q.ts.inputs = Q.inputs from rfl, f.inputs]
    by_cases hc : a ∈ S.outputs
    · exact .inr (.inl hc)
    · exact .inl (b3 a ((al.inP a).2 (.inr ⟨ha, hc⟩)))
  · rcases (f.outputs a).1 ha with ⟨h1, h2⟩ | ⟨h1, h2⟩
    · exact ((al.outP a).1 (b4 a h1)).resolve_left h2
    · by_contra hc
      exact h2 (b3 a ((al.inP a).2 (.inl ⟨h1, hc⟩)))
  obtain ⟨lt0, it0⟩ := h.initT
  obtain ⟨ls0, is0, zs0⟩ := h.initS
  have hQ0 := f.init _ _ it0 is0
  right
  rcases hP.states with ⟨_, hc⟩ | ⟨p0, m0, ip0, im0, g⟩
  · have hc : T.initialLoc = _ := hc
    rw [it0] at hc; cases hc
  have ip0 : P.initialLoc = _ := ip0
  have im0 : T.initialLoc = _ := im0
  rw [it0] at im0; cases im0
  obtain ⟨ls1, x0, e1, ix0, hp0⟩ := j.init p0 ip0
  rw [is0] at e1; cases e1
  refine ⟨x0, LocTree.merge lt0 ls0, ix0, hQ0, fun hz => ?_⟩
  have hzp : zeroVal ∈ InvSet p0 := (j.inv hp0).2 ⟨zs0, hz⟩
  obtain ⟨R, hR, r0⟩ := g hzp
  -- where a related state of the composition can be found, where `S` has left its invariant for good, and
  -- where anything goes
  refine ⟨fun x vx m w => X.ts.Reach x vx ∧ Valid (dim F) w ∧
    ((∃ p y ls vs lt vt, R p y lt vt ∧ S.ts.Reach ls vs ∧ T.ts.Reach lt vt ∧ P.IsLoc p ∧
      Located S X (fun x a b => LocTree.compose a b .composition = .ok x) p y ls vs x vx ∧
      Located T S IsMerge m w lt vt ls vs) ∨
     (∃ ls vs lt vt, Located T S IsMerge m w lt vt ls vs ∧
       ∀ d : ℝ, 0 ≤ d → delay (dim F) vs d ∉ InvSet ls) ∨
     m = LocTree.universalLoc), ⟨?_, ?_, ?_⟩, .init ix0 hz, Sys.zeroVal_valid, .inl ⟨p0, zeroVal, ls0,
      zeroVal, lt0, zeroVal, r0, .init is0 zs0, .init it0 (hR.inv r0 hzp), Sys.initial_isLoc gP ip0,
      ⟨hp0, Sys.initial_isLoc gS is0, Sys.initial_isLoc gX ix0, Sys.zeroVal_valid, Sys.zeroVal_valid,
        Sys.zeroVal_valid, fun _ _ => rfl, fun _ _ => rfl⟩,
      ⟨rfl, Sys.initial_isLoc gT it0, Sys.initial_isLoc gS is0, Sys.zeroVal_valid, Sys.zeroVal_valid,
        Sys.zeroVal_valid, fun _ _ => rfl, fun _ _ => rfl⟩⟩⟩
  · rintro x vx m w o x' vx' ⟨rx, hw, hcase⟩ hoX ex
    have hoX : o ∈ X.outputs := hoX
    have hoS : o ∉ S.outputs := xS o hoX
    have hoT : o ∉ T.inputs := xT o hoX
    have hoP := xP o hoX
    have hkP := Sys.hasAction_of_output hoP
    have rx' : X.ts.Reach x' vx' := .act rx ex
    rcases hcase with ⟨p, y, ls, vs, lt, vt, r, rs, rt, lp, l1, l2⟩ | ⟨ls, vs, lt, vt, l2, hleft⟩ | rfl
    · have is := Sys.Reach.inv rs
      have it := Sys.Reach.inv rt
      by_cases hiS : o ∈ S.inputs
      · have hoQ : o ∈ Q.outputs := (f.outputs o).2 (.inr ⟨hiS, hoT⟩)
        have hkQ := Sys.hasAction_of_output hoQ
        refine ⟨fun _ => ?_, fun hn => absurd hoQ hn⟩
        obtain ⟨ls', vs', es⟩ := henS ls vs rs o hiS
        obtain ⟨p', y', ep, l1'⟩ := l1.sync j gP gS gX h.clocksSX lp hkP es ex
        obtain ⟨g1, g2⟩ := hR.output r hoP ep
        by_cases hoT' : o ∈ T.outputs
        · obtain ⟨lt', vt', et, r'⟩ := g1 hoT'
          obtain ⟨m', w', e, l2'⟩ := l2.quot_joint f gT gS h.clocksTS hkQ it is et es
          exact ⟨m', w', e, rx', l2'.valid, .inl ⟨p', y', ls', vs', lt', vt', r', .act rs es, .act rt et,
            (Sys.act_valid gP lp l1.valid ep).1, l1', l2'⟩⟩
        · obtain ⟨m', w', e, l2'⟩ := l2.quot_onlyS f gS h.clocksTS hkQ (Sys.not_known hoT hoT') is es
          exact ⟨m', w', e, rx', l2'.valid, .inl ⟨p', y', ls', vs', lt, vt, g2 hoT', .act rs es, rt,
            (Sys.act_valid gP lp l1.valid ep).1, l1', l2'⟩⟩
      · have hnS := Sys.not_known hiS hoS
        obtain ⟨p', y', ep, l1'⟩ := l1.swap.alone j.swap gP gX gS hdis' lp hkP ex hnS is
        obtain ⟨g1, g2⟩ := hR.output r hoP ep
        by_cases hoT' : o ∈ T.outputs
        · have hoQ : o ∈ Q.outputs := (f.outputs o).2 (.inl ⟨hoT', hoS⟩)
          refine ⟨fun _ => ?_, fun hn => absurd hoQ hn⟩
          obtain ⟨lt', vt', et, r'⟩ := g1 hoT'
          obtain ⟨m', w', e, l2'⟩ := l2.quot_onlyT f gT gS h.clocksTS (Sys.hasAction_of_output hoQ) hnS it is et
          exact ⟨m', w', e, rx', l2'.valid, .inl ⟨p', y', ls, vs, lt', vt', r', rs, .act rt et,
            (Sys.act_valid gP lp l1.valid ep).1, l1'.swap, l2'⟩⟩
        · refine ⟨fun hc => ?_, fun _ => ⟨rx', hw, .inl ⟨p', y', ls, vs, lt, vt, g2 hoT', rs, rt,
            (Sys.act_valid gP lp l1.valid ep).1, l1'.swap, l2⟩⟩⟩
          rcases (f.outputs o).1 hc with hc | hc
          · exact absurd hc.1 hoT'
          · exact absurd hc.1 hiS
    · refine ⟨fun hoQ => ?_, fun _ => ⟨rx', hw, .inr (.inl ⟨ls, vs, lt, vt, l2, hleft⟩)⟩⟩
      have hm := l2.loc; subst hm
      have hn : w ∉ InvSet ls := fun hc => hleft 0 le_rfl (by rw [delay_zero]; exact (l2.invS gS).1 hc)
      exact ⟨_, _, (f.act lt ls l2.left l2.right o (Sys.hasAction_of_output hoQ) w hw _ _).2
        (.universal (.inl hn)), rx', hw, .inr (.inr rfl)⟩
    · exact ⟨fun hoQ => ⟨_, _, (f.univ o (Sys.hasAction_of_output hoQ) w hw _ _).2 ⟨rfl, rfl⟩, rx', hw,
        .inr (.inr rfl)⟩, fun _ => ⟨rx', hw, .inr (.inr rfl)⟩⟩
  · rintro x vx m w i m' w' ⟨rx, hw, hcase⟩ hiQ e
    have hiQ : i ∈ Q.inputs := hiQ
    -- going to the universal location is always fine
    have toUniv : m' = LocTree.universalLoc → Valid (dim F) w' →
        (i ∈ X.ts.inputs → ∃ x' vx', X.ts.Act x vx i x' vx' ∧ X.ts.Reach x' vx' ∧ Valid (dim F) w' ∧
    ((∃ p y ls vs lt vt, R p y lt vt ∧ S.ts.Reach ls vs ∧ T.ts.Reach lt vt ∧ P.IsLoc p ∧
      Located S X (fun x a b => LocTree.compose a b .composition = .ok x) p y ls vs x' vx' ∧
      Located T S IsMerge m' w' lt vt ls vs) ∨
     (∃ ls vs lt vt, Located T S IsMerge m' w' lt vt ls vs ∧
       ∀ d : ℝ, 0 ≤ d → delay (dim F) vs d ∉ InvSet ls) ∨
     m' = LocTree.universalLoc)) ∧ (i ∉ X.ts.inputs → X.ts.Reach x vx ∧ Valid (dim F) w' ∧
    ((∃ p y ls vs lt vt, R p y lt vt ∧ S.ts.Reach ls vs ∧ T.ts.Reach lt vt ∧ P.IsLoc p ∧
      Located S X (fun x a b => LocTree.compose a b .composition = .ok x) p y ls vs x vx ∧
      Located T S IsMerge m' w' lt vt ls vs) ∨
     (∃ ls vs lt vt, Located T S IsMerge m' w' lt vt ls vs ∧
       ∀ d : ℝ, 0 ≤ d → delay (dim F) vs d ∉ InvSet ls) ∨
     m' = LocTree.universalLoc)) := by
      rintro hu hw'
      refine ⟨fun hi => ?_, fun _ => ⟨rx, hw', .inr (.inr hu)⟩⟩
      obtain ⟨x', vx', ex⟩ := henX x vx rx i hi
      exact ⟨x', vx', ex, .act rx ex, hw', .inr (.inr hu)⟩
    rcases hcase with ⟨p, y, ls, vs, lt, vt, r, rs, rt, lp, l1, l2⟩ | ⟨ls, vs, lt, vt, l2, hleft⟩ | rfl
    · have is := Sys.Reach.inv rs
      have it := Sys.Reach.inv rt
      have ix := Sys.Reach.inv rx
      -- an output of `S` that `X` follows or does not know
      have outS : ∀ {ls' vs'}, i ∈ S.outputs → S.ts.Act ls vs i ls' vs' → ∃ p' y' x' vx',
          P.ts.Act p y i p' y' ∧
          Located S X (fun x a b => LocTree.compose a b .composition = .ok x) p' y' ls' vs' x' vx' ∧
          (i ∈ X.inputs → X.ts.Act x vx i x' vx') ∧ (i ∉ X.inputs → x' = x ∧ vx' = vx) := by
        intro ls' vs' hiS es
        have hkP := Sys.hasAction_of_output (sP i hiS)
        by_cases hiX : i ∈ X.inputs
        · obtain ⟨x', vx', ex⟩ := henX x vx rx i hiX
          obtain ⟨p', y', ep, l1'⟩ := l1.sync j gP gS gX h.clocksSX lp hkP es ex
          exact ⟨p', y', x', vx', ep, l1', fun _ => ex, fun hn => absurd hiX hn⟩
        · obtain ⟨p', y', ep, l1'⟩ := l1.alone j gP gS gX h.clocksSX lp hkP es
            (Sys.not_known hiX (al.outs i hiS)) ix
          exact ⟨p', y', x, vx, ep, l1', fun hc => absurd hc hiX, fun _ => ⟨rfl, rfl⟩⟩
      rcases l2.quot_cases f gT gS h.clocksTS h.clockPos h.clockDim e with
        ⟨lt', vt', ls', vs', et, es, _, l2'⟩ | ⟨ls', vs', hn, es, _, l2'⟩ | ⟨lt', vt', hn, et, _, l2'⟩ |
        ⟨hu, hwu, _⟩ | ⟨_, _, hiS, hiT, hcS, hcT⟩ | ⟨_, _, _, hc, _⟩
      · have hkT : T.hasAction i = true := et.1
        by_cases hiT : i ∈ T.inputs
        · have hiX : i ∉ X.outputs := fun hc => xT i hc hiT
          have hiS : i ∉ S.outputs := fun hc => f.apart i hc hiT
          have his : i ∈ S.inputs := (Sys.hasAction_iff.1 (show S.hasAction i = true from es.1)).resolve_right hiS
          have hiP : i ∈ P.inputs := (al.inP i).2 (.inl ⟨his, hiX⟩)
          obtain ⟨p', y', ep, r'⟩ := (hR.input r hiT et).1 hiP
          have lp' := (Sys.act_valid gP lp l1.valid ep).1
          refine ⟨fun hix => ?_, fun hix => ?_⟩
          · obtain ⟨l, v, x', vx', es', ex, l1'⟩ := l1.act_both j gP gS gX lp ep
              (Sys.hasAction_of_input his) (Sys.hasAction_of_input hix)
            obtain ⟨rfl, rfl⟩ := Sys.act_unique hdetS rs es es'
            exact ⟨x', vx', ex, .act rx ex, l2'.valid, .inl ⟨p', y', ls', vs', lt', vt', r', .act rs es,
              .act rt et, lp', l1', l2'⟩⟩
          · obtain ⟨l, v, es', _, l1'⟩ := l1.act_left j gP gS gX lp ep
              (Sys.hasAction_of_input his) (Sys.not_known hix hiX)
            obtain ⟨rfl, rfl⟩ := Sys.act_unique hdetS rs es es'
            exact ⟨rx, l2'.valid, .inl ⟨p', y', ls', vs', lt', vt', r', .act rs es, .act rt et, lp', l1', l2'⟩⟩
        · have hiS : i ∈ S.outputs := by
            rcases (f.inputs i).1 hiQ with hc | hc | rfl
            · exact absurd hc hiT
            · exact hc
            · rw [al.ownT] at hkT; cases hkT
          obtain ⟨p', y', x', vx', ep, l1', k1, k2⟩ := outS hiS es
          obtain ⟨lt1, vt1, et', r'⟩ := (hR.output r (sP i hiS) ep).1 ((Sys.hasAction_iff.1 hkT).resolve_left hiT)
          obtain ⟨rfl, rfl⟩ := Sys.act_unique hdetT rt et et'
          have lp' := (Sys.act_valid gP lp l1.valid ep).1
          refine ⟨fun hix => ⟨x', vx', k1 hix, .act rx (k1 hix), l2'.valid, .inl ⟨p', y', ls', vs', lt', vt', r',
            .act rs es, .act rt et, lp', l1', l2'⟩⟩, fun hix => ?_⟩
          obtain ⟨rfl, rfl⟩ := k2 hix
          exact ⟨rx, l2'.valid, .inl ⟨p', y', ls', vs', lt', vt', r', .act rs es, .act rt et, lp', l1', l2'⟩⟩
      · have hiS : i ∈ S.outputs := by
          rcases (f.inputs i).1 hiQ with hc | hc | rfl
          · exact absurd hc (Sys.known_not hn).1
          · exact hc
          · have : S.hasAction i = true := es.1
            rw [al.ownS] at this; cases this
        obtain ⟨p', y', x', vx', ep, l1', k1, k2⟩ := outS hiS es
        have r' := (hR.output r (sP i hiS) ep).2 (Sys.known_not hn).2
        have lp' := (Sys.act_valid gP lp l1.valid ep).1
        refine ⟨fun hix => ⟨x', vx', k1 hix, .act rx (k1 hix), l2'.valid, .inl ⟨p', y', ls', vs', lt, vt, r',
          .act rs es, rt, lp', l1', l2'⟩⟩, fun hix => ?_⟩
        obtain ⟨rfl, rfl⟩ := k2 hix
        exact ⟨rx, l2'.valid, .inl ⟨p', y', ls', vs', lt, vt, r', .act rs es, rt, lp', l1', l2'⟩⟩
      · have hiT : i ∈ T.inputs := by
          rcases (f.inputs i).1 hiQ with hc | hc | rfl
          · exact hc
          · exact absurd hc (Sys.known_not hn).2
          · have : T.hasAction i = true := et.1
            rw [al.ownT] at this; cases this
        obtain ⟨g1, g2⟩ := hR.input r hiT et
        refine ⟨fun hix => ?_, fun hix => ?_⟩
        · obtain ⟨p', y', ep, r'⟩ := g1 ((al.inP i).2 (.inr ⟨hix, (Sys.known_not hn).2⟩))
          obtain ⟨x', vx', ex, _, l1'⟩ := l1.swap.act_left j.swap gP gX gS lp ep
            (Sys.hasAction_of_input hix) hn
          exact ⟨x', vx', ex, .act rx ex, l2'.valid, .inl ⟨p', y', ls, vs, lt', vt', r', rs, .act rt et,
            (Sys.act_valid gP lp l1.valid ep).1, l1'.swap, l2'⟩⟩
        · have hiP : i ∉ P.inputs := fun hc => by
            rcases (al.inP i).1 hc with hc | hc
            · exact (Sys.known_not hn).1 hc.1
            · exact hix hc.1
          exact ⟨rx, l2'.valid, .inl ⟨p, y, ls, vs, lt', vt', g2 hiP, rs, .act rt et, lp, l1, l2'⟩⟩
      · exact toUniv hu (by rw [hwu]; exact hw)
      · obtain ⟨_, ls', vs', es⟩ := hcS
        obtain ⟨p', y', x', vx', ep, _⟩ := outS hiS es
        obtain ⟨lt', vt', et, _⟩ := (hR.output r (sP i hiS) ep).1 hiT
        exact absurd ⟨it, _, _, et⟩ hcT
      · exact absurd it hc
    · have hn : vs ∉ InvSet ls := by have := hleft 0 le_rfl; rwa [delay_zero] at this
      rcases l2.quot_cases f gT gS h.clocksTS h.clockPos h.clockDim e with
        ⟨_, _, _, _, _, _, hc, _⟩ | ⟨_, _, _, _, hc, _⟩ | ⟨_, _, _, _, hc, _⟩ |
        ⟨hu, hwu, _⟩ | ⟨_, _, _, _, hc, _⟩ | ⟨_, _, _, _, hc⟩
      · exact absurd hc hn
      · exact absurd hc hn
      · exact absurd hc hn
      · exact toUniv hu (by rw [hwu]; exact hw)
      · exact absurd hc.1 hn
      · exact absurd hc hn
    · obtain ⟨hu, hwu⟩ := (f.univ i (Sys.hasAction_of_input hiQ) w hw _ _).1 e
      exact toUniv hu (by rw [hwu]; exact hw)
  · rintro x vx m w d ⟨rx, hw, hcase⟩ hd
    have rx' : X.ts.Reach x _ := .delay rx hd
    rcases hcase with ⟨p, y, ls, vs, lt, vt, r, rs, rt, lp, l1, l2⟩ | ⟨ls, vs, lt, vt, l2, hleft⟩ | rfl
    · refine ⟨l2.canDelay_merge hd.1, rx', delay_valid hw hd.1, ?_⟩
      have is := Sys.Reach.inv rs
      by_cases hin : delay (dim F) vs d ∈ InvSet ls
      · have ds : TS.CanDelay ls vs d :=
          ⟨hd.1, fun d' h1 h2 => hconv ls l1.left vs d' d l1.validL is h1 h2 hin⟩
        have dp := (l1.canDelay j gS gX).2 ⟨ds, hd⟩
        obtain ⟨dt, r'⟩ := hR.delay r dp
        exact .inl ⟨p, _, ls, _, lt, _, r', .delay rs ds, .delay rt dt, lp, l1.delayed hd.1, l2.delayed hd.1⟩
      · refine .inr (.inl ⟨ls, _, lt, _, l2.delayed hd.1, fun e he hc => hin ?_⟩)
        rw [delay_add] at hc
        exact hconv ls l1.left vs d (d + e) l1.validL is hd.1 (by linarith) hc
    · refine ⟨l2.canDelay_merge hd.1, rx', delay_valid hw hd.1, .inr (.inl ⟨ls, _, lt, _, l2.delayed hd.1,
        fun e he hc => ?_⟩)⟩
      rw [delay_add] at hc
      exact hleft _ (add_nonneg hd.1 he) hc
    · exact ⟨⟨hd.1, fun d' _ _ i hi => by cases hi⟩, rx', delay_valid hw hd.1, .inr (.inr rfl)⟩

/-- `X` refines `T \\ S` if and only if `S || X` refines `T`, for deterministic systems of which `S` and
`X` accept all their inputs, `X` never gets stuck and `S` has invariants convex in time.
Missing from the full property: other systems; if `X` can get stuck the claim is false
(`C63_violated_stuck`). -/
theorem C63_quotient_partial (T S X Q P : Sys F) (clock : Nat) (h : Sys.Adjoint T S X Q P clock)
    (hdetT : T.ts.Deterministic) (hdetS : S.ts.Deterministic) (hdetX : X.ts.Deterministic)
    (henS : S.ts.InputEnabled) (henX : X.ts.InputEnabled) (hconv : ∀ l, S.IsLoc l → TimeConvex l)
    (hstuck : X.ts.NeverStuck) (houtX : ∀ a ∈ X.outputs, T.hasAction a = true ∨ S.hasAction a = true) :
    Refines X.ts Q.ts ↔ Refines P.ts T.ts :=
  ⟨C63_sound_partial T S X Q P clock h hdetS henS hdetX hstuck houtX,
    C63_complete_partial T S X Q P clock h hdetS henS hconv hdetT henX⟩

/-! ## Examples -/

theorem exComp_calm {c : Component} {h : (CompComp.compile (F := Fed4) id c 0).toBool = true}
    (ha : (getOk (CompComp.compile (F := Fed4) id c 0) h).EdgesAgree) : (exComp c h).CalmUpdates :=
  fun _ _ _ _ hn => CompComp.EdgesAgree.next ha hn

/-- What is asked of the whole: between a request and its answer pass one to six time units. -/
def exWhole : Component := ⟨"W", ⟨[], [("z", 3)]⟩,
  [⟨"W0", none, .initial, "NORMAL"⟩, ⟨"W1", some (.le (.var "z") (.int 6)), .normal, "NORMAL"⟩],
  [⟨"w0", "W0", "W1", .output, none, some [⟨"z", .int 0⟩], "go"⟩,
   ⟨"w1", "W1", "W0", .output, some (.ge (.var "z") (.int 1)), none, "out"⟩]⟩
/-- A user that asks, and takes answers at all times. -/
def exAsker : Component := { exB with edges := exB.edges ++ [⟨"f2", "M0", "M0", .input, none, none, "out"⟩] }

def sysWhole : Sys Fed4 := exComp exWhole (by decide +kernel)
def sysAsker : Sys Fed4 := exComp exAsker (by decide +kernel)
/-- `W \\ A'` and `A' || U` -/
def sysRest : Sys Fed4 := getOk (Sys.newQuotientUnchecked sysWhole sysA' 2) (by decide +kernel)
def sysTeam : Sys Fed4 := getOk (Sys.newComposition sysA' sysAsker) (by decide +kernel)

theorem sysWhole_accepted : sysWhole.Accepted := exComp_accepted (by decide)
theorem sysAsker_accepted : sysAsker.Accepted := exComp_accepted (by decide)
theorem sysTeam_eq : Sys.newComposition sysA' sysAsker = .ok sysTeam := getOk_eq _

theorem sysTeam_adjoint : Sys.Adjoint sysWhole sysA' sysAsker sysRest sysTeam 2 where
  acceptedT := sysWhole_accepted
  acceptedS := sysA'_accepted
  acceptedX := sysAsker_accepted
  clockPos := by decide
  clockDim := by decide
  quotient := getOk_eq _
  composition := sysTeam_eq
  clocksTS := by unfold Sys.DisjointClocks; decide +kernel
  clocksSX := by unfold Sys.DisjointClocks; decide +kernel
  inOutS := by decide +kernel
  inOutX := by decide +kernel
  calmT := exComp_calm (by decide +kernel)
  calmS := exComp_calm (by decide +kernel)
  own := by decide +kernel
  initT := ⟨.leaf (.simple "W0") none .initial, rfl⟩
  initS := ⟨.leaf (.simple "L0") none .initial, rfl, fun i hi => by cases hi⟩

theorem sysAsker_locs {l : LocTree Fed4} (h : sysAsker.IsLoc l) :
    l = .leaf (.simple "M0") none .initial ∨ l = .leaf (.simple "M1") none .normal := by
  obtain ⟨p, hp, rfl⟩ := h
  have hp' : p ∈ [(LocId.simple "M0", (.leaf (.simple "M0") none .initial : LocTree Fed4)),
    (LocId.simple "M1", .leaf (.simple "M1") none .normal)] := hp
  simp only [List.mem_cons, List.not_mem_nil, or_false] at hp'
  rcases hp' with rfl | rfl
  · exact .inl rfl
  · exact .inr rfl

theorem sysAsker_enabled : sysAsker.ts.InputEnabled := by
  intro l v hr i hi
  obtain ⟨hloc, hv⟩ := Sys.Good.reach sysAsker_accepted.good hr
  have hi' : i = "out" := by
    have : sysAsker.ts.inputs = ["out"] := by decide +kernel
    rw [this] at hi; simpa using hi
  subst hi'
  let m0 : LocTree Fed4 := .leaf (.simple "M0") none .initial
  rcases sysAsker_locs hloc with rfl | rfl
  · refine ⟨m0, _, by decide +kernel, [⟨.simple "f2", univ, m0, []⟩], rfl, _, List.mem_singleton.2 rfl,
      ⟨by rw [den_univ]; exact hv, fun i hi => by cases hi⟩, rfl, rfl⟩
  · refine ⟨m0, _, by decide +kernel, [⟨.simple "f1", univ, m0, [⟨2, 0⟩]⟩], rfl, _, List.mem_singleton.2 rfl,
      ⟨by rw [den_univ]; exact hv, fun i hi => by cases hi⟩, rfl, rfl⟩

theorem sysAsker_neverStuck : sysAsker.ts.NeverStuck := by
  intro l v hr
  refine .inl fun d hd => ⟨hd, fun d' _ _ i hi => ?_⟩
  rcases sysAsker_locs (Sys.Good.reach sysAsker_accepted.good hr).1 with rfl | rfl <;> cases hi

theorem exDet2 {c : Component} {h : (CompComp.compile (F := Fed4) id c 0).toBool = true} (hc : c.okB 4 = true)
    (hio : ∀ a, (a ∈ (exComp c h).ts.inputs ∨ a ∈ (exComp c h).ts.outputs) ↔ a ∈ ["go", "out"])
    (ha : (getOk (CompComp.compile (F := Fed4) id c 0) h).EdgesAgree) (fuel : Nat)
    (hp : checkDeterminism (exComp c h).ts (fun _ => ["go", "out"]) fuel = .ok none) :
    (exComp c h).ts.Deterministic :=
  C12_deterministic_partial _ (exComp_accepted hc) (fun _ => ["go", "out"])
    (fun _ => ⟨by decide, fun a => (hio a).symm⟩) ha.updatesAgree fuel hp

theorem sysWhole_deterministic : sysWhole.ts.Deterministic :=
  exDet2 (by decide) (fun a => by
    have : (exComp exWhole (by decide +kernel)).ts.inputs = [] ∧
      (exComp exWhole (by decide +kernel)).ts.outputs = ["go", "out"] := by decide +kernel
    rw [this.1, this.2]; simp) (by decide +kernel) 10 (passes_eq (by decide +kernel))

theorem sysAsker_deterministic : sysAsker.ts.Deterministic :=
  exDet2 (by decide) (fun a => by
    have : (exComp exAsker (by decide +kernel)).ts.inputs = ["out"] ∧
      (exComp exAsker (by decide +kernel)).ts.outputs = ["go"] := by decide +kernel
    rw [this.1, this.2]; simp; tauto) (by decide +kernel) 10 (passes_eq (by decide +kernel))

theorem sysA'_deterministic : sysA'.ts.Deterministic :=
  exDet (by decide) (by decide +kernel) (by decide +kernel) (by decide +kernel) 10 (passes_eq (by decide +kernel))

/-- The pair passes the refinement check against the whole. -/
theorem sysTeam_refines : Refines sysTeam.ts sysWhole.ts := by
  have hacc : sysTeam.Accepted := .composition sysA'_accepted sysAsker_accepted sysTeam_eq
  have hd : sysA'.DisjointClocks sysAsker := by unfold Sys.DisjointClocks; decide +kernel
  refine C16_refines_partial _ _ hacc sysWhole_accepted (by unfold Sys.DisjointClocks; decide +kernel)
    ((Sys.isProd_composition sysTeam_eq).agree hacc.good sysA'_accepted.good sysAsker_accepted.good hd
      (CompComp.EdgesAgree.updatesAgree (by decide +kernel)) (CompComp.EdgesAgree.updatesAgree (by decide +kernel)))
    (CompComp.EdgesAgree.updatesAgree (by decide +kernel))
    (fun m _ hr => exComp_convex (by decide) (by decide) m (Sys.Good.reach sysWhole_accepted.good hr).1)
    (fun l m _ hm d hd => ⟨hd.1, fun _ _ _ => ?_⟩)
    (exOrdersO [] ["go", "out"]) (exOrdersO [] ["go", "out"]) sysTeam.ts.outputs sysWhole.ts.inputs
    (fun _ => Iff.rfl) (fun _ => Iff.rfl) 30 (passes_eq (by decide +kernel))
  have : sysWhole.ts.initialLoc = .ok (some (.leaf (.simple "W0") none .initial)) := rfl
  rw [this] at hm; cases hm
  intro i hi; cases hi

/-- The hypotheses of both directions can be met: the user refines `W \\ A'`, and therefore the pair
refines `W`. -/
theorem C63_example : Refines sysAsker.ts sysRest.ts ∧ (Refines sysAsker.ts sysRest.ts ↔
    Refines sysTeam.ts sysWhole.ts) := by
  have h := C63_quotient_partial sysWhole sysA' sysAsker sysRest sysTeam 2 sysTeam_adjoint
    sysWhole_deterministic sysA'_deterministic sysAsker_deterministic sysA'_enabled sysAsker_enabled
    (exComp_convex (by decide) (by decide)) sysAsker_neverStuck (by decide +kernel)
  exact ⟨h.2 sysTeam_refines, h⟩

/-- Knows the output `a` but never allows it. -/
def exForbid : Component := ⟨"T", ⟨[], []⟩, [⟨"T0", none, .initial, "NORMAL"⟩, ⟨"T1", none, .normal, "NORMAL"⟩],
  [⟨"t", "T1", "T1", .output, none, none, "a"⟩]⟩
/-- Accepts `a`, and then lets no time pass and does nothing but accept `a`. -/
def exFreeze : Component := ⟨"X", ⟨[], [("z", 3)]⟩,
  [⟨"X0", none, .initial, "NORMAL"⟩, ⟨"X1", some (.le (.var "z") (.int 0)), .normal, "NORMAL"⟩],
  [⟨"x0", "X0", "X1", .input, none, some [⟨"z", .int 0⟩], "a"⟩, ⟨"x1", "X1", "X1", .input, none, none, "a"⟩]⟩

def sysForbid : Sys Fed4 := exComp exForbid (by decide +kernel)
def sysTalk : Sys Fed4 := exComp exOut (by decide +kernel)
def sysFreeze : Sys Fed4 := exComp exFreeze (by decide +kernel)
def sysFQ : Sys Fed4 := getOk (Sys.newQuotientUnchecked sysForbid sysTalk 2) (by decide +kernel)
def sysFP : Sys Fed4 := getOk (Sys.newComposition sysTalk sysFreeze) (by decide +kernel)

theorem sysFreeze_adjoint : Sys.Adjoint sysForbid sysTalk sysFreeze sysFQ sysFP 2 where
  acceptedT := exComp_accepted (by decide)
  acceptedS := exComp_accepted (by decide)
  acceptedX := exComp_accepted (by decide)
  clockPos := by decide
  clockDim := by decide
  quotient := getOk_eq _
  composition := getOk_eq _
  clocksTS := by unfold Sys.DisjointClocks; decide +kernel
  clocksSX := by unfold Sys.DisjointClocks; decide +kernel
  inOutS := by decide +kernel
  inOutX := by decide +kernel
  calmT := exComp_calm (by decide +kernel)
  calmS := exComp_calm (by decide +kernel)
  own := by decide +kernel
  initT := ⟨.leaf (.simple "T0") none .initial, rfl⟩
  initS := ⟨.leaf (.simple "L0") none .initial, rfl, fun i hi => by cases hi⟩

theorem exDet3 {c : Component} {h : (CompComp.compile (F := Fed4) id c 0).toBool = true} (hc : c.okB 4 = true)
    (hio : ∀ a, (a ∈ (exComp c h).ts.inputs ∨ a ∈ (exComp c h).ts.outputs) ↔ a ∈ ["a"])
    (ha : (getOk (CompComp.compile (F := Fed4) id c 0) h).EdgesAgree) (fuel : Nat)
    (hp : checkDeterminism (exComp c h).ts (fun _ => ["a"]) fuel = .ok none) :
    (exComp c h).ts.Deterministic :=
  C12_deterministic_partial _ (exComp_accepted hc) (fun _ => ["a"])
    (fun _ => ⟨by decide, fun a => (hio a).symm⟩) ha.updatesAgree fuel hp

theorem sysTalk_act {v : Val} (hv : Valid (dim Fed4) v) :
    sysTalk.ts.Act (.leaf (.simple "L0") none .initial) v "a" (.leaf (.simple "L0") none .initial) v :=
  ⟨by decide +kernel, [⟨.simple "e", univ, .leaf (.simple "L0") none .initial, []⟩], rfl, _,
    List.mem_singleton.2 rfl, ⟨by rw [den_univ]; exact hv, fun i hi => by cases hi⟩, rfl, rfl⟩

theorem sysForbid_act {v : Val} {l' : LocTree Fed4} {v' : Val} {a : String} :
    ¬ sysForbid.ts.Act (.leaf (.simple "T0") none .initial) v a l' v' := by
  rintro ⟨ha, trans, htr, t, ht, _⟩
  have ha' : a = "a" := by
    have h1 : sysForbid.ts.inputs = [] := by decide +kernel
    have h2 : sysForbid.ts.outputs = ["a"] := by decide +kernel
    unfold TS.hasAction at ha
    rw [h1, h2] at ha
    simpa using ha
  subst ha'
  have : sysForbid.ts.next (.leaf (.simple "T0") none .initial) "a" = .ok [] := rfl
  rw [this] at htr; cases htr; cases ht

/-- The locations of the system that freezes. -/
abbrev locX0 : LocTree Fed4 := .leaf (.simple "X0") none .initial
abbrev locX1 : LocTree Fed4 := .leaf (.simple "X1") (some (constrain univ 3 0 (.LE 0))) .normal

theorem invX1 {v : Val} : v ∈ InvSet locX1 ↔ Valid (dim Fed4) v ∧ v 3 = 0 := by
  unfold InvSet
  simp only [LocTree.inv, Option.some.injEq, Set.mem_ofPred_eq, forall_eq',
    den_constrain _ _ _ _ (show 3 < dim Fed4 by decide) (show 0 < dim Fed4 by decide), den_univ, Ineq.Sat]
  constructor
  · rintro ⟨h1, h2⟩
    refine ⟨h1, le_antisymm ?_ (h1.2.1 3)⟩
    rw [h1.1] at h2; simpa using h2
  · rintro ⟨h1, h2⟩
    refine ⟨h1, ?_⟩
    rw [h1.1, h2]; simp

theorem sysFreeze_act0 {v : Val} (hv : Valid (dim Fed4) v) :
    sysFreeze.ts.Act locX0 v "a" locX1 (assign v 3 0) := by
  refine ⟨by decide +kernel, [⟨.simple "x0", univ, locX1, [⟨3, 0⟩]⟩], rfl, _, List.mem_singleton.2 rfl,
    ⟨by rw [den_univ]; exact hv, ?_⟩, rfl, by simp [runUpdates]⟩
  refine invX1.2 ⟨?_, ?_⟩ <;> simp only [runUpdates, List.foldl, Int.cast_zero]
  · exact assign_valid hv (by decide) (by decide) (by simp)
  · simp [assign]

theorem sysFreeze_act1 {v : Val} (hv : Valid (dim Fed4) v) (h : v 3 = 0) :
    sysFreeze.ts.Act locX1 v "a" locX1 v :=
  ⟨by decide +kernel, [⟨.simple "x1", univ, locX1, []⟩], rfl, _, List.mem_singleton.2 rfl,
    ⟨by rw [den_univ]; exact hv, invX1.2 ⟨hv, h⟩⟩, rfl, rfl⟩

theorem sysFreeze_enabled : sysFreeze.ts.InputEnabled := by
  intro l v hr i hi
  obtain ⟨hloc, hv⟩ := Sys.Good.reach sysFreeze_adjoint.acceptedX.good hr
  have hinv := Sys.Reach.inv hr
  have hi' : i = "a" := by
    have : sysFreeze.ts.inputs = ["a"] := by decide +kernel
    rw [this] at hi; simpa using hi
  subst hi'
  obtain ⟨p, hp, rfl⟩ := hloc
  have hp' : p ∈ [(LocId.simple "X0", locX0), (LocId.simple "X1", locX1)] := hp
  simp only [List.mem_cons, List.not_mem_nil, or_false] at hp'
  rcases hp' with rfl | rfl
  · exact ⟨_, _, sysFreeze_act0 hv⟩
  · exact ⟨_, _, sysFreeze_act1 hv (invX1.1 hinv).2⟩

theorem sysFreeze_refines : Refines sysFreeze.ts sysFQ.ts := by
  have h := sysFreeze_adjoint
  obtain ⟨fresh, f⟩ := h.facts
  have hin : sysFreeze.ts.inputs = ["a"] := by decide +kernel
  have hout : sysFreeze.ts.outputs = [] := by decide +kernel
  have hqo : sysFQ.ts.outputs = [] := by decide +kernel
  have haQ : "a" ∈ sysFQ.inputs := by decide +kernel
  have hsO : "a" ∈ sysTalk.outputs := by decide +kernel
  have htO : "a" ∈ sysForbid.outputs := by decide +kernel
  let t0 : LocTree Fed4 := .leaf (.simple "T0") none .initial
  let s0 : LocTree Fed4 := .leaf (.simple "L0") none .initial
  have it0 : sysForbid.initialLoc = .ok (some t0) := rfl
  have is0 : sysTalk.initialLoc = .ok (some s0) := rfl
  have gT := Sys.initial_isLoc h.acceptedT.good it0
  have gS := Sys.initial_isLoc h.acceptedS.good is0
  refine ⟨⟨fun a ha => by rw [hqo]; simp, fun a ha => by rw [hout] at ha; simp at ha,
    fun a ha => ?_, fun a ha => by rw [hqo] at ha; simp at ha⟩,
    .inr ⟨locX0, LocTree.merge t0 s0, rfl, f.init _ _ it0 is0, fun _ => ?_⟩⟩
  · rw [hin] at ha
    rw [List.mem_singleton] at ha; subst ha; exact haQ
  refine ⟨fun x v m w => (x = locX0 ∧ Valid (dim Fed4) v ∧ m = LocTree.merge t0 s0 ∧ Valid (dim Fed4) w) ∨
    (x = locX1 ∧ Valid (dim Fed4) v ∧ v 3 = 0 ∧ m = LocTree.errorLoc 2 ∧ Valid (dim Fed4) w ∧ w 2 = 0),
    ⟨?_, ?_, ?_⟩, .inl ⟨rfl, Sys.zeroVal_valid, rfl, Sys.zeroVal_valid⟩⟩
  · intro l v m w o l' v' _ ho
    rw [hout] at ho; simp at ho
  · rintro x v m w i m' w' (⟨rfl, hv, rfl, hw⟩ | ⟨rfl, hv, hz, rfl, hw, hwz⟩) hi hact
    · have hk : sysFQ.hasAction i = true := hact.1
      have hs : w ∈ InvSet s0 := fun i hi => by cases hi
      have ht : w ∈ InvSet t0 := fun i hi => by cases hi
      have rule := (f.act t0 s0 gT gS i hk w hw _ _).1 hact
      cases rule with
      | joint _ _ mt => exact absurd mt sysForbid_act
      | onlyT _ _ _ mt => exact absurd mt sysForbid_act
      | onlyS hn _ ms =>
        exfalso
        have : sysTalk.hasAction i = true := ms.1
        rcases Sys.hasAction_iff.1 this with hc | hc
        · have : sysTalk.inputs = [] := by decide +kernel
          rw [this] at hc; cases hc
        · have : sysTalk.outputs = ["a"] := by decide +kernel
          rw [this, List.mem_singleton] at hc; subst hc
          exact (Sys.known_not hn).2 htO
      | universal hu =>
        exfalso
        rcases hu with hc | ⟨ho, hc⟩
        · exact hc hs
        · have : sysTalk.outputs = ["a"] := by decide +kernel
          rw [this, List.mem_singleton] at ho; subst ho
          exact hc ⟨hs, _, _, sysTalk_act hw⟩
      | errorOutput h1 h2 h3 h4 =>
        have : sysTalk.outputs = ["a"] := by decide +kernel
        rw [this, List.mem_singleton] at h1; subst h1
        refine ⟨fun _ => ⟨locX1, _, sysFreeze_act0 hv, .inr ⟨rfl, ?_, ?_, rfl, ?_, ?_⟩⟩, fun hn => ?_⟩
        · exact assign_valid hv (by decide) (by decide) (by simp)
        · simp [assign]
        · exact assign_valid hw (by decide) (by decide) (by simp)
        · simp [assign]
        · rw [hin] at hn; simp at hn
      | errorDelay _ hc => exact absurd ht hc
    · have hk : sysFQ.hasAction i = true := hact.1
      obtain ⟨rfl, rfl⟩ : m' = LocTree.errorLoc 2 ∧ w' = w := by
        obtain ⟨hd, hq⟩ := Sys.newQuotient_eq h.quotient
        rw [hq] at hact
        exact (((C39_error h.clockPos h.clockDim hact.1 hw m' w').1).1 hact).2.2
      refine ⟨fun hi => ?_, fun _ => .inr ⟨rfl, hv, hz, rfl, hw, hwz⟩⟩
      rw [hin, List.mem_singleton] at hi; subst hi
      exact ⟨_, _, sysFreeze_act1 hv hz, .inr ⟨rfl, hv, hz, rfl, hw, hwz⟩⟩
  · rintro x v m w d (⟨rfl, hv, rfl, hw⟩ | ⟨rfl, hv, hz, rfl, hw, hwz⟩) hd
    · exact ⟨⟨hd.1, fun d' _ _ i hi => by cases hi⟩, .inl ⟨rfl, delay_valid hv hd.1, rfl, delay_valid hw hd.1⟩⟩
    · have hd0 : d = 0 := by
        have := (invX1.1 (hd.2 d hd.1 le_rfl)).2
        unfold delay at this
        rw [if_pos ⟨by decide, by decide⟩, hz] at this
        linarith
      subst hd0
      rw [delay_zero, delay_zero]
      exact ⟨canDelay_zero.2 ((invSet_errorLoc (by decide) (by decide)).2 ⟨hw, hwz⟩),
        .inr ⟨rfl, hv, hz, rfl, hw, hwz⟩⟩

/-- The restriction to systems that never get stuck is needed: a system that freezes on an output of `S`
which `T` forbids refines `T \\ S`, although with `S` it does what `T` forbids. -/
theorem C63_violated_stuck : ∃ (T S X Q P : Sys Fed4) (clock : Nat), Sys.Adjoint T S X Q P clock ∧
    T.ts.Deterministic ∧ S.ts.Deterministic ∧ X.ts.Deterministic ∧ S.ts.InputEnabled ∧
    X.ts.InputEnabled ∧ (∀ l, S.IsLoc l → TimeConvex l) ∧
    (∀ a ∈ X.outputs, T.hasAction a = true ∨ S.hasAction a = true) ∧
    Refines X.ts Q.ts ∧ ¬ Refines P.ts T.ts := by
  refine ⟨_, _, _, _, _, 2, sysFreeze_adjoint,
    exDet3 (by decide) (fun a => ?_) (by decide +kernel) 10 (passes_eq (by decide +kernel)),
    exDet3 (by decide) (fun a => ?_) (by decide +kernel) 10 (passes_eq (by decide +kernel)),
    exDet3 (by decide) (fun a => ?_) (by decide +kernel) 10 (passes_eq (by decide +kernel)),
    fun l v _ i hi => ?_, sysFreeze_enabled, exComp_convex (by decide) (by decide), by decide +kernel,
    sysFreeze_refines, fun hr => ?_⟩
  · have : (exComp exForbid (by decide +kernel)).ts.inputs = [] ∧
      (exComp exForbid (by decide +kernel)).ts.outputs = ["a"] := by decide +kernel
    rw [this.1, this.2]; simp
  · have : (exComp exOut (by decide +kernel)).ts.inputs = [] ∧
      (exComp exOut (by decide +kernel)).ts.outputs = ["a"] := by decide +kernel
    rw [this.1, this.2]; simp
  · have : (exComp exFreeze (by decide +kernel)).ts.inputs = ["a"] ∧
      (exComp exFreeze (by decide +kernel)).ts.outputs = [] := by decide +kernel
    rw [this.1, this.2]; simp
  · have : sysTalk.ts.inputs = [] := by decide +kernel
    rw [this] at hi; cases hi
  · have h := sysFreeze_adjoint
    have gS := h.acceptedS.good
    have gX := h.acceptedX.good
    have gP : sysFP.Good := (Sys.Accepted.composition h.acceptedS h.acceptedX h.composition).good
    have j := Sys.join_composition gS gX h.clocksSX h.composition
    have it : sysForbid.initialLoc = .ok (some (.leaf (.simple "T0") none .initial)) := rfl
    have is : sysTalk.initialLoc = .ok (some (.leaf (.simple "L0") none .initial)) := rfl
    have ix : sysFreeze.initialLoc = .ok (some locX0) := rfl
    rcases hr.states with ⟨_, hc⟩ | ⟨p, m, hp, hm, g⟩
    · have hc : sysForbid.initialLoc = _ := hc
      rw [it] at hc; cases hc
    have hp : sysFP.initialLoc = _ := hp
    have hm : sysForbid.initialLoc = _ := hm
    rw [it] at hm; cases hm
    obtain ⟨a, b, ha, hb, hj⟩ := j.init p hp
    rw [is] at ha; cases ha
    rw [ix] at hb; cases hb
    obtain ⟨R, hR, r0⟩ := g ((j.inv hj).2 ⟨(fun i hi => by cases hi), (fun i hi => by cases hi)⟩)
    have loc : Located sysTalk sysFreeze (fun x a b => LocTree.compose a b .composition = .ok x) p zeroVal
        (.leaf (.simple "L0") none .initial) zeroVal locX0 zeroVal :=
      ⟨hj, Sys.initial_isLoc gS is, Sys.initial_isLoc gX ix, Sys.zeroVal_valid, Sys.zeroVal_valid,
        Sys.zeroVal_valid, fun _ _ => rfl, fun _ _ => rfl⟩
    obtain ⟨p', y', e, _⟩ := loc.sync j gP gS gX h.clocksSX (Sys.initial_isLoc gP hp) (o := "a")
      (by decide +kernel) (sysTalk_act Sys.zeroVal_valid) (sysFreeze_act0 Sys.zeroVal_valid)
    obtain ⟨_, _, e', _⟩ := (hR.output r0 (by decide +kernel) e).1 (by decide +kernel)
    exact sysForbid_act e'

end Reveaal
