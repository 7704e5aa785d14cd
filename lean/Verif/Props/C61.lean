import Verif.Props.C18
import Verif.Props.C45
import Verif.Props.C39
import Verif.Lemmas.Recipe

/-! # C61: consistency of a composition follows from that of its components -/

namespace Reveaal
open ZoneLib
variable {F : Type} [ZoneLib F]

/-- A delay can be shortened. -/
theorem canDelay_less {l : LocTree F} {v : Val} {d e : ℝ} (h : TS.CanDelay l v d) (h0 : 0 ≤ e) (he : e ≤ d) :
    TS.CanDelay l v e := ⟨h0, fun d' h1 h2 => h.2 d' h1 (h2.trans he)⟩

namespace Sys

/-- A pair of states in consistent sets, seen as a state of the composition. -/
structure BothIn (p q : Sys F) (J : LocTree F → LocTree F → LocTree F → Prop) (P Q : LocTree F → Val → Prop)
    (x : LocTree F) (y : Val) (a : LocTree F) (w : Val) (b : LocTree F) (z : Val) : Prop where
  located : Located p q J x y a w b z
  reachL : p.ts.Reach a w
  reachR : q.ts.Reach b z
  memL : P a w
  memR : Q b z

/-- The states of the composition made of states of the two sets. -/
def PairSet (p q : Sys F) (J : LocTree F → LocTree F → LocTree F → Prop) (P Q : LocTree F → Val → Prop)
    (x : LocTree F) (y : Val) : Prop := ∃ a w b z, BothIn p q J P Q x y a w b z

section
variable {s p q : Sys F} {J : LocTree F → LocTree F → LocTree F → Prop} {P Q : LocTree F → Val → Prop}
  {x a b : LocTree F} {y w z : Val}

theorem BothIn.swap (h : BothIn p q J P Q x y a w b z) :
    BothIn q p (fun x a b => J x b a) Q P x y b z a w :=
  ⟨h.located.swap, h.reachR, h.reachL, h.memR, h.memL⟩

theorem PairSet.swap (h : PairSet q p (fun x a b => J x b a) Q P x y) : PairSet p q J P Q x y := by
  obtain ⟨b, z, a, w, h⟩ := h
  exact ⟨a, w, b, z, h.swap⟩

theorem BothIn.isLoc (h : BothIn p q J P Q x y a w b z) (hj : s.Join p q J) : s.IsLoc x :=
  (hj.locs x).2 ⟨a, b, h.located.left, h.located.right, h.located.loc⟩

/-- An action that is an input of one side and not an output of the other keeps to the sets. -/
theorem BothIn.input (h : BothIn p q J P Q x y a w b z) (hj : s.Join p q J) (hs : s.Good) (hp : p.Good)
    (hq : q.Good) (cp : ConsistentSet p.ts P) (cq : ConsistentSet q.ts Q) {i : String} (hi : i ∈ p.inputs)
    (ho : i ∉ q.outputs) {x' : LocTree F} {y' : Val} (hact : s.ts.Act x y i x' y') :
    PairSet p q J P Q x' y' := by
  cases hqa : q.hasAction i with
  | true =>
    have hqi : i ∈ q.inputs := (hasAction_iff.1 hqa).resolve_right ho
    obtain ⟨a', w', b', z', h1, h2, h3⟩ :=
      h.located.act_both hj hs hp hq (h.isLoc hj) hact (hasAction_of_input hi) hqa
    exact ⟨a', w', b', z', h3, .act h.reachL h1, .act h.reachR h2, cp.input h.memL hi h1,
      cq.input h.memR hqi h2⟩
  | false =>
    obtain ⟨a', w', h1, _, h3⟩ :=
      h.located.act_left hj hs hp hq (h.isLoc hj) hact (hasAction_of_input hi) hqa
    exact ⟨a', w', b, z, h3, .act h.reachL h1, h.reachR, cp.input h.memL hi h1, h.memR⟩

/-- An output of one side, which the other side hears or does not know. -/
theorem BothIn.output (h : BothIn p q J P Q x y a w b z) (hj : s.Join p q J) (hs : s.Good) (hp : p.Good)
    (hq : q.Good) (hdis : p.DisjointClocks q) (cq : ConsistentSet q.ts Q) (eq : q.ts.InputEnabled)
    {o : String} (ho : o ∈ s.outputs) (hoq : o ∉ q.outputs) {a' : LocTree F} {w' : Val}
    (hact : p.ts.Act a w o a' w') (hP : P a' w') :
    ∃ x' y', s.ts.Act x y o x' y' ∧ PairSet p q J P Q x' y' := by
  cases hqa : q.hasAction o with
  | true =>
    have hqi : o ∈ q.inputs := (hasAction_iff.1 hqa).resolve_right hoq
    obtain ⟨b', z', h2⟩ := eq b z h.reachR o hqi
    obtain ⟨x', y', h3, h4⟩ := h.located.sync hj hs hp hq hdis (h.isLoc hj) (hasAction_of_output ho) hact h2
    exact ⟨x', y', h3, a', w', b', z', h4, .act h.reachL hact, .act h.reachR h2, hP, cq.input h.memR hqi h2⟩
  | false =>
    obtain ⟨x', y', h3, h4⟩ := h.located.alone hj hs hp hq hdis (h.isLoc hj) (hasAction_of_output ho) hact hqa
      (Sys.Reach.inv h.reachR)
    exact ⟨x', y', h3, a', w', b, z, h4, .act h.reachL hact, h.reachR, hP, h.memR⟩

theorem BothIn.delayed (h : BothIn p q J P Q x y a w b z) (cp : ConsistentSet p.ts P)
    (cq : ConsistentSet q.ts Q) {d : ℝ} (h1 : TS.CanDelay a w d) (h2 : TS.CanDelay b z d) :
    BothIn p q J P Q x (delay (dim F) y d) a (delay (dim F) w d) b (delay (dim F) z d) :=
  ⟨h.located.delayed h1.1, .delay h.reachL h1, .delay h.reachR h2, cp.delay h.memL h1, cq.delay h.memR h2⟩

/-- One side is ready to output after `d` and the other can wait that long. -/
theorem BothIn.first (h : BothIn p q J P Q x y a w b z) (hj : s.Join p q J) (hs : s.Good) (hp : p.Good)
    (hq : q.Good) (hdis : p.DisjointClocks q) (cp : ConsistentSet p.ts P) (cq : ConsistentSet q.ts Q)
    (eq : q.ts.InputEnabled) (hout : ∀ o ∈ p.outputs, o ∈ s.outputs ∧ o ∉ q.outputs) {d : ℝ}
    (h1 : TS.CanDelay a w d) (h2 : TS.CanDelay b z d) {o : String} (ho : o ∈ p.outputs) {a' : LocTree F}
    {w' : Val} (hact : p.ts.Act a (delay (dim F) w d) o a' w') (hP : P a' w') :
    ∃ d : ℝ, TS.CanDelay x y d ∧ ∃ o ∈ s.ts.outputs, ∃ x' y', s.ts.Act x (delay (dim F) y d) o x' y' ∧
      PairSet p q J P Q x' y' := by
  obtain ⟨x', y', h3, h4⟩ := (h.delayed cp cq h1 h2).output hj hs hp hq hdis cq eq (hout o ho).1 (hout o ho).2
    hact hP
  exact ⟨d, (h.located.canDelay hj hp hq).2 ⟨h1, h2⟩, o, (hout o ho).1, x', y', h3, h4⟩

/-- The pairs form a consistent set of the composition. -/
theorem pairSet_consistent (hj : s.Join p q J) (hs : s.Good) (hp : p.Good) (hq : q.Good)
    (hdis : p.DisjointClocks q) (cp : ConsistentSet p.ts P) (cq : ConsistentSet q.ts Q)
    (ep : p.ts.InputEnabled) (eq : q.ts.InputEnabled)
    (hsafe : ∀ x a b, J x a b → a.isInconsistent = false → b.isInconsistent = false → x.isInconsistent = false)
    (hin : ∀ i ∈ s.inputs, (i ∈ p.inputs ∧ i ∉ q.outputs) ∨ (i ∈ q.inputs ∧ i ∉ p.outputs))
    (houtp : ∀ o ∈ p.outputs, o ∈ s.outputs ∧ o ∉ q.outputs)
    (houtq : ∀ o ∈ q.outputs, o ∈ s.outputs ∧ o ∉ p.outputs) :
    ConsistentSet s.ts (PairSet p q J P Q) := by
  have hdis' : q.DisjointClocks p := fun i hi hc => hdis i hc hi
  refine ⟨?_, ?_, ?_, ?_⟩
  · rintro x y ⟨a, w, b, z, h⟩
    exact hsafe x a b h.located.loc (cp.safe h.memL) (cq.safe h.memR)
  · rintro x y d ⟨a, w, b, z, h⟩ hd
    obtain ⟨h1, h2⟩ := (h.located.canDelay hj hp hq).1 hd
    exact ⟨_, _, _, _, h.delayed cp cq h1 h2⟩
  · rintro x y i x' y' ⟨a, w, b, z, h⟩ hi hact
    rcases hin i hi with ⟨h1, h2⟩ | ⟨h1, h2⟩
    · exact h.input hj hs hp hq cp cq h1 h2 hact
    · exact (h.swap.input hj.swap hs hq hp cq cp h1 h2 hact).swap
  · rintro x y ⟨a, w, b, z, h⟩
    have left : ∀ d : ℝ, TS.CanDelay a w d → TS.CanDelay b z d → (∃ o ∈ p.ts.outputs, ∃ a' w',
        p.ts.Act a (delay (dim F) w d) o a' w' ∧ P a' w') → ∃ d : ℝ, TS.CanDelay x y d ∧ ∃ o ∈ s.ts.outputs,
        ∃ x' y', s.ts.Act x (delay (dim F) y d) o x' y' ∧ PairSet p q J P Q x' y' := by
      rintro d h1 h2 ⟨o, ho, a', w', hact, hP⟩
      exact h.first hj hs hp hq hdis cp cq eq houtp h1 h2 ho hact hP
    have right : ∀ d : ℝ, TS.CanDelay a w d → TS.CanDelay b z d → (∃ o ∈ q.ts.outputs, ∃ b' z',
        q.ts.Act b (delay (dim F) z d) o b' z' ∧ Q b' z') → ∃ d : ℝ, TS.CanDelay x y d ∧ ∃ o ∈ s.ts.outputs,
        ∃ x' y', s.ts.Act x (delay (dim F) y d) o x' y' ∧ PairSet p q J P Q x' y' := by
      rintro d h1 h2 ⟨o, ho, b', z', hact, hQ⟩
      obtain ⟨d, k1, o, k2, x', y', k3, k4⟩ :=
        h.swap.first hj.swap hs hq hp hdis' cq cp ep houtq h2 h1 ho hact hQ
      exact ⟨d, k1, o, k2, x', y', k3, k4.swap⟩
    rcases cp.progress h.memL with f1 | ⟨d1, c1, r1⟩ <;> rcases cq.progress h.memR with f2 | ⟨d2, c2, r2⟩
    · exact .inl fun d hd => (h.located.canDelay hj hp hq).2 ⟨f1 d hd, f2 d hd⟩
    · exact .inr (right d2 (f1 d2 c2.1) c2 r2)
    · exact .inr (left d1 c1 (f2 d1 c1.1) r1)
    · rcases le_total d1 d2 with hle | hle
      · exact .inr (left d1 c1 (canDelay_less c2 c1.1 hle) r1)
      · exact .inr (right d2 (canDelay_less c1 c2.1 hle) c2 r2)

end

omit [ZoneLib F] in
/-- The outputs of the two sides of a composition are different, and its alphabet is made of theirs. -/
theorem composition_alphabet {l r s : Sys F} (h : newComposition l r = .ok s) :
    (∀ i, i ∈ s.inputs ↔ (i ∈ l.inputs ∧ i ∉ r.outputs) ∨ (i ∈ r.inputs ∧ i ∉ l.outputs)) ∧
    (∀ o, o ∈ s.outputs ↔ o ∈ l.outputs ∨ o ∈ r.outputs) ∧ ∀ o ∈ l.outputs, o ∉ r.outputs := by
  obtain ⟨hd, rfl⟩ := newComposition_eq h
  refine ⟨fun i => ?_, fun o => ?_, ?_⟩
  · rw [inputs_composition]
    simp [mem_mkSet, List.mem_append, List.mem_filter]
  · rw [outputs_composition, mem_setUnion]
  · exact hd

end Sys

/-- A composition of systems that accept every input accepts every input. -/
theorem C61_enabled (l r s : Sys F) (hl : l.Accepted) (hr : r.Accepted) (h : Sys.newComposition l r = .ok s)
    (hdis : l.DisjointClocks r) (el : l.ts.InputEnabled) (er : r.ts.InputEnabled) : s.ts.InputEnabled := by
  have hs : s.Good := (Sys.Accepted.composition hl hr h).good
  have hj := Sys.join_composition hl.good hr.good hdis h
  obtain ⟨hin, _, _⟩ := Sys.composition_alphabet h
  have hdis' : r.DisjointClocks l := fun i hi hc => hdis i hc hi
  intro x y hre i hi
  obtain ⟨xl, xr, hx, ⟨w, hw, ag1⟩, z, hz, ag2⟩ :=
    (Sys.isProd_composition h).project hs hl.good hr.good hdis hre
  obtain ⟨hxs, hy⟩ := hs.reach hre
  have hloc : Located l r (fun x a b => LocTree.compose a b .composition = .ok x) x y xl w xr z :=
    ⟨hx, (hl.good.reach hw).1, (hr.good.reach hz).1, hy, (hl.good.reach hw).2, (hr.good.reach hz).2, ag1, ag2⟩
  have ha : s.hasAction i = true := Sys.hasAction_of_input hi
  rcases (hin i).1 hi with ⟨h1, h2⟩ | ⟨h1, h2⟩
  · obtain ⟨a', w', k1⟩ := el _ _ hw i h1
    cases hra : r.hasAction i with
    | true =>
      obtain ⟨b', z', k2⟩ := er _ _ hz i ((Sys.hasAction_iff.1 hra).resolve_right h2)
      obtain ⟨x', y', k3, _⟩ := hloc.sync hj hs hl.good hr.good hdis hxs ha k1 k2
      exact ⟨x', y', k3⟩
    | false =>
      obtain ⟨x', y', k3, _⟩ := hloc.alone hj hs hl.good hr.good hdis hxs ha k1 hra (Sys.Reach.inv hz)
      exact ⟨x', y', k3⟩
  · obtain ⟨b', z', k1⟩ := er _ _ hz i h1
    cases hla : l.hasAction i with
    | true =>
      obtain ⟨a', w', k2⟩ := el _ _ hw i ((Sys.hasAction_iff.1 hla).resolve_right h2)
      obtain ⟨x', y', k3, _⟩ := hloc.sync hj hs hl.good hr.good hdis hxs ha k2 k1
      exact ⟨x', y', k3⟩
    | false =>
      obtain ⟨x', y', k3, _⟩ := hloc.swap.alone hj.swap hs hr.good hl.good hdis' hxs ha k1 hla (Sys.Reach.inv hw)
      exact ⟨x', y', k3⟩

/-- **C61**: if the two operands of a composition are consistent and accept every input, the composition is
consistent. -/
theorem C61_composition (l r s : Sys F) (hl : l.Accepted) (hr : r.Accepted)
    (h : Sys.newComposition l r = .ok s) (hdis : l.DisjointClocks r) (el : l.ts.InputEnabled)
    (er : r.ts.InputEnabled) (cl : l.ts.Consistent) (cr : r.ts.Consistent) : s.ts.Consistent := by
  have hs : s.Good := (Sys.Accepted.composition hl hr h).good
  have hj := Sys.join_composition hl.good hr.good hdis h
  obtain ⟨hin, hout, hdo⟩ := Sys.composition_alphabet h
  obtain ⟨a, ia, za, P, cP, pa⟩ := cl
  obtain ⟨b, ib, zb, Q, cQ, qb⟩ := cr
  obtain ⟨ox, hox, _⟩ := hs.initial
  cases ox with
  | none =>
    rcases hj.initNone hox with h1 | h1
    · rw [show l.initialLoc = _ from ia] at h1; cases h1
    · rw [show r.initialLoc = _ from ib] at h1; cases h1
  | some x =>
    obtain ⟨a', b', ha, hb, hx⟩ := hj.init x hox
    rw [show l.initialLoc = _ from ia] at ha; cases ha
    rw [show r.initialLoc = _ from ib] at hb; cases hb
    have ra : l.ts.Reach a zeroVal := .init ia za
    have rb : r.ts.Reach b zeroVal := .init ib zb
    refine ⟨x, hox, (hj.inv hx).2 ⟨za, zb⟩, _,
      Sys.pairSet_consistent hj hs hl.good hr.good hdis cP cQ el er ?_ (fun i hi => (hin i).1 hi)
        (fun o ho => ⟨(hout o).2 (.inl ho), hdo o ho⟩) (fun o ho => ⟨(hout o).2 (.inr ho), fun hc => hdo o hc ho⟩),
      a, zeroVal, b, zeroVal, ⟨hx, (hl.good.reach ra).1, (hr.good.reach rb).1, (hl.good.reach ra).2,
        (hl.good.reach ra).2, (hr.good.reach rb).2, fun _ _ => rfl, fun _ _ => rfl⟩, ra, rb, pa, qb⟩
    intro x a b hx _ _
    cases hx
    show decide (a.ty.combine b.ty = .inconsistent) = false
    generalize a.ty = t; generalize b.ty = u
    revert t u; intro t u; cases t <;> cases u <;> rfl

namespace Sys

/-- Built with `||` from parts with the property `P` that have different clocks. -/
inductive Composed (P : Sys F → Prop) : Sys F → Prop
  | part {s : Sys F} (hs : s.Accepted) (h : P s) : Composed P s
  | composition {l r s : Sys F} (hl : Composed P l) (hr : Composed P r) (h : newComposition l r = .ok s)
      (hd : l.DisjointClocks r) : Composed P s

theorem Composed.accepted {P : Sys F → Prop} {s : Sys F} (h : s.Composed P) : s.Accepted := by
  induction h with
  | part hs _ => exact hs
  | composition _ _ h _ ihl ihr => exact .composition ihl ihr h

end Sys

/-- **C61**, for compositions of any number of parts. -/
theorem C61_parts (s : Sys F) (h : s.Composed fun p => p.ts.InputEnabled ∧ p.ts.Consistent) :
    s.ts.InputEnabled ∧ s.ts.Consistent := by
  induction h with
  | part _ h => exact h
  | composition hl hr h hd ihl ihr =>
    exact ⟨C61_enabled _ _ _ hl.accepted hr.accepted h hd ihl.1 ihr.1,
      C61_composition _ _ _ hl.accepted hr.accepted h hd ihl.1 ihr.1 ihl.2 ihr.2⟩

/-! ## What the query looks at -/

/-- The components of a system, with the way to them through the tree (`false` is left). -/
def Sys.parts : Sys F → List (List Bool × CompComp F)
  | .comp c => [([], c)]
  | .composition l r _ _ _ _ _ => l.parts.map (fun p => (false :: p.1, p.2)) ++
      r.parts.map fun p => (true :: p.1, p.2)
  | .conjunction l r _ _ => l.parts.map (fun p => (false :: p.1, p.2)) ++
      r.parts.map fun p => (true :: p.1, p.2)
  | .quotient l r _ _ _ _ => l.parts.map (fun p => (false :: p.1, p.2)) ++
      r.parts.map fun p => (true :: p.1, p.2)

/-- Two checks in a row. -/
theorem both_none {X : Type} {a b : Res (Option X)} {k : Option X → Res (Option X)} (h0 : k none = b)
    (h1 : ∀ f, k (some f) = .ok (some f)) : a >>= k = .ok none ↔ a = .ok none ∧ b = .ok none := by
  subst h0
  cases a with
  | error e => exact ⟨fun h => (by cases h), fun h => (by cases h.1)⟩
  | ok o =>
    cases o with
    | none => exact ⟨fun h => ⟨rfl, h⟩, fun h => h.2⟩
    | some f => exact ⟨fun h => (by rw [ok_bind, h1] at h; cases h), fun h => (by cases h.1)⟩

theorem either_some {X : Type} {a b : Res (Option X)} {k : Option X → Res (Option X)} {f : X}
    (h : a >>= k = .ok (some f)) (h0 : k none = b) (h1 : ∀ f, k (some f) = .ok (some f)) :
    a = .ok (some f) ∨ b = .ok (some f) := by
  subst h0
  cases a with
  | error e => cases h
  | ok o =>
    cases o with
    | none => exact .inr h
    | some g => rw [ok_bind, h1] at h; cases h; exact .inl rfl

theorem Sys.checkDet_none {s : Sys F} : ∀ {ord : List Bool → Orders} {fuel : Nat},
    s.checkDet ord fuel = .ok none ↔
      ∀ p ∈ s.parts, checkDeterminism (Sys.comp p.2).ts (ord p.1).acts fuel = .ok none := by
  induction s with
  | comp c => intro ord fuel; simp [Sys.checkDet, Sys.parts]
  | composition l r _ _ _ _ _ ihl ihr | conjunction l r _ _ ihl ihr | quotient l r _ _ _ _ ihl ihr =>
    intro ord fuel
    rw [Sys.checkDet]
    refine (both_none (by rfl) (by exact fun _ => rfl)).trans ?_
    rw [ihl, ihr, Sys.parts, List.forall_mem_append, List.forall_mem_map,
      List.forall_mem_map]

theorem Sys.checkCons_none {s : Sys F} : ∀ {ord : List Bool → Orders} {fuel : Nat},
    s.checkCons ord fuel = .ok none ↔
      ∀ p ∈ s.parts, isLeastConsistent (Sys.comp p.2).ts (ord p.1).inputs (ord p.1).outputs fuel = .ok none := by
  induction s with
  | comp c => intro ord fuel; simp [Sys.checkCons, Sys.parts]
  | composition l r _ _ _ _ _ ihl ihr | conjunction l r _ _ ihl ihr =>
    intro ord fuel
    rw [Sys.checkCons]
    refine (both_none (by rfl) (by exact fun _ => rfl)).trans ?_
    rw [ihl, ihr, Sys.parts, List.forall_mem_append, List.forall_mem_map,
      List.forall_mem_map]
  | quotient l r _ _ _ _ ihl ihr =>
    intro ord fuel
    rw [Sys.checkCons]
    refine (both_none (by rfl) (by exact fun _ => rfl)).trans ?_
    rw [ihl, ihr, Sys.parts, List.forall_mem_append, List.forall_mem_map,
      List.forall_mem_map, and_comm]

theorem Sys.checkDet_some {s : Sys F} : ∀ {ord : List Bool → Orders} {fuel : Nat} {f : DetFailure F},
    s.checkDet ord fuel = .ok (some f) →
      ∃ p ∈ s.parts, checkDeterminism (Sys.comp p.2).ts (ord p.1).acts fuel = .ok (some f) := by
  induction s with
  | comp c => intro ord fuel f h; exact ⟨_, List.mem_singleton.2 rfl, h⟩
  | composition l r _ _ _ _ _ ihl ihr | conjunction l r _ _ ihl ihr | quotient l r _ _ _ _ ihl ihr =>
    intro ord fuel f h
    rw [Sys.checkDet] at h
    rcases either_some h rfl (fun _ => rfl) with h | h
    · obtain ⟨p, hp, h⟩ := ihl h
      exact ⟨(false :: p.1, p.2), List.mem_append_left _ (List.mem_map.2 ⟨p, hp, rfl⟩), h⟩
    · obtain ⟨p, hp, h⟩ := ihr h
      exact ⟨(true :: p.1, p.2), List.mem_append_right _ (List.mem_map.2 ⟨p, hp, rfl⟩), h⟩

theorem Sys.checkCons_some {s : Sys F} : ∀ {ord : List Bool → Orders} {fuel : Nat} {f : ConsFailure F},
    s.checkCons ord fuel = .ok (some f) → ∃ p ∈ s.parts,
      isLeastConsistent (Sys.comp p.2).ts (ord p.1).inputs (ord p.1).outputs fuel = .ok (some f) := by
  induction s with
  | comp c => intro ord fuel f h; exact ⟨_, List.mem_singleton.2 rfl, h⟩
  | composition l r _ _ _ _ _ ihl ihr | conjunction l r _ _ ihl ihr | quotient l r _ _ _ _ ihl ihr =>
    intro ord fuel f h
    rw [Sys.checkCons] at h
    rcases either_some h rfl (fun _ => rfl) with h | h <;>
    first
    | obtain ⟨p, hp, h⟩ := ihl h
      exact ⟨(false :: p.1, p.2), List.mem_append_left _ (List.mem_map.2 ⟨p, hp, rfl⟩), h⟩
    | obtain ⟨p, hp, h⟩ := ihr h
      exact ⟨(true :: p.1, p.2), List.mem_append_right _ (List.mem_map.2 ⟨p, hp, rfl⟩), h⟩

/-- **C61**, the query: it succeeds exactly when every component of the system, by itself, passes the
determinism check and the consistency check. -/
theorem C61_query (s : Sys F) (ord : List Bool → Orders) (fuel : Nat) :
    s.precheck ord fuel = .ok none ↔ ∀ p ∈ s.parts,
      checkDeterminism (Sys.comp p.2).ts (ord p.1).acts fuel = .ok none ∧
      isLeastConsistent (Sys.comp p.2).ts (ord p.1).inputs (ord p.1).outputs fuel = .ok none := by
  have h : s.precheck ord fuel = .ok none ↔ s.checkDet ord fuel = .ok none ∧ s.checkCons ord fuel = .ok none := by
    unfold Sys.precheck
    cases hd : s.checkDet ord fuel with
    | error e => exact ⟨fun h => (by cases h), fun h => (by cases h.1)⟩
    | ok o =>
      cases o with
      | none => exact ⟨fun h => ⟨rfl, h⟩, fun h => h.2⟩
      | some f => exact ⟨fun h => (by cases h), fun h => (by cases h.1)⟩
  rw [h, Sys.checkDet_none, Sys.checkCons_none]
  exact ⟨fun h p hp => ⟨h.1 p hp, h.2 p hp⟩, fun h => ⟨fun p hp => (h p hp).1, fun p hp => (h p hp).2⟩⟩

/-- A failure of the query is a failure of one of the components. -/
theorem C61_query_failure (s : Sys F) (ord : List Bool → Orders) (fuel : Nat) (f : ConsFailure F)
    (h : s.precheck ord fuel = .ok (some f)) : ∃ p ∈ s.parts,
      (∃ g, f = .notDeterministic g ∧ checkDeterminism (Sys.comp p.2).ts (ord p.1).acts fuel = .ok (some g)) ∨
      isLeastConsistent (Sys.comp p.2).ts (ord p.1).inputs (ord p.1).outputs fuel = .ok (some f) := by
  unfold Sys.precheck at h
  obtain ⟨o, hd, h⟩ := bind_ok h
  cases o with
  | some g =>
    cases h
    obtain ⟨p, hp, h⟩ := Sys.checkDet_some hd
    exact ⟨p, hp, .inl ⟨g, rfl, h⟩⟩
  | none =>
    obtain ⟨p, hp, h⟩ := Sys.checkCons_some h
    exact ⟨p, hp, .inr h⟩

/-! ## Concrete cases -/

/-- The input-enabled machine `A` is consistent. -/
theorem sysA'_consistent : sysA'.ts.Consistent := by
  let l0 : LocTree Fed4 := .leaf (.simple "L0") none .initial
  let l1 : LocTree Fed4 := .leaf (.simple "L1") (some (constrain univ 1 0 (.LE 5))) .normal
  have hi : sysA'.ts.inputs = ["go"] := by decide +kernel
  have ho : sysA'.ts.outputs = ["out"] := by decide +kernel
  have n0 : sysA'.ts.next l0 "go" = .ok [⟨.simple "e0", univ, l1, [⟨1, 0⟩]⟩] := rfl
  have n1 : sysA'.ts.next l1 "go" = .ok [⟨.simple "e2", univ, l1, []⟩] := rfl
  have o1 : sysA'.ts.next l1 "out" = .ok [⟨.simple "e1", constrain univ 0 1 (.LE (-2)), l0, []⟩] := rfl
  have inv1 : ∀ {v : Val}, v ∈ InvSet l1 ↔ Valid (dim Fed4) v ∧ v 1 ≤ 5 := by
    intro v
    have : v ∈ InvSet l1 ↔ v ∈ den (constrain (univ : Fed4) 1 0 (.LE 5)) :=
      ⟨fun h => h _ rfl, fun h i hi => by cases hi; exact h⟩
    rw [this, den_constrain _ _ _ _ (by decide) (by decide), den_univ]
    constructor
    · rintro ⟨h, k⟩
      have := h.1
      simp [Ineq.Sat] at k
      exact ⟨h, by linarith⟩
    · rintro ⟨h, k⟩
      have := h.1
      refine ⟨h, ?_⟩
      simp [Ineq.Sat]; linarith
  refine ⟨l0, rfl, (by intro i hi; cases hi), fun l v => Valid (dim Fed4) v ∧ (l = l0 ∨ l = l1 ∧ v 1 ≤ 5),
    ⟨?_, ?_, ?_, ?_⟩, Sys.zeroVal_valid, .inl rfl⟩
  · rintro l v ⟨_, rfl | ⟨rfl, _⟩⟩ <;> rfl
  · rintro l v d ⟨hv, rfl | ⟨rfl, h⟩⟩ hd
    · exact ⟨delay_valid hv hd.1, .inl rfl⟩
    · obtain ⟨h1, h2⟩ := inv1.1 (hd.2 d hd.1 le_rfl)
      exact ⟨h1, .inr ⟨rfl, h2⟩⟩
  · rintro l v i l' v' ⟨hv, h⟩ hin ⟨_, tr, hn, t, ht, hc, rfl, rfl⟩
    rw [hi, List.mem_singleton] at hin; subst hin
    have : t.target = l1 ∧ CanTake t v := by
      rcases h with rfl | ⟨rfl, h⟩
      · rw [n0] at hn; cases hn; rw [List.mem_singleton] at ht; subst ht; exact ⟨rfl, hc⟩
      · rw [n1] at hn; cases hn; rw [List.mem_singleton] at ht; subst ht; exact ⟨rfl, hc⟩
    have hv' := hc.2
    rw [this.1] at hv' ⊢
    obtain ⟨h1, h2⟩ := inv1.1 hv'
    exact ⟨h1, .inr ⟨rfl, h2⟩⟩
  · rintro l v ⟨hv, rfl | ⟨rfl, h⟩⟩
    · exact .inl fun d hd => ⟨hd, fun d _ _ i hi => by cases hi⟩
    · have hd : (0 : ℝ) ≤ 5 - v 1 := by linarith
      have hval : Valid (dim Fed4) (delay (dim Fed4) v (5 - v 1)) := delay_valid hv hd
      have h5 : delay (dim Fed4) v (5 - v 1) 1 = 5 := by simp [delay, dim_fed4]
      refine .inr ⟨5 - v 1, ⟨hd, fun d' h0 h1 => inv1.2 ⟨delay_valid hv h0, ?_⟩⟩, "out", by rw [ho]; simp, l0, _,
        ⟨by decide +kernel, _, o1, _, List.mem_singleton.2 rfl, ⟨?_, by intro i hi; cases hi⟩, rfl, rfl⟩,
        hval, .inl rfl⟩
      · simp [delay, dim_fed4]; linarith
      · rw [den_constrain _ _ _ _ (by decide) (by decide), den_univ]
        refine ⟨hval, ?_⟩
        have := hval.1
        simp only [Ineq.Sat, h5, this]; norm_num

/-- A user that presses `go` within three time units. -/
def exUser : Component := ⟨"B", ⟨[], [("y", 2)]⟩,
  [⟨"M0", some (.le (.var "y") (.int 3)), .initial, "NORMAL"⟩, ⟨"M1", none, .normal, "NORMAL"⟩],
  [⟨"f0", "M0", "M1", .output, none, none, "go"⟩,
   ⟨"f1", "M1", "M0", .input, none, some [⟨"y", .int 0⟩], "out"⟩,
   ⟨"f2", "M0", "M0", .input, none, none, "out"⟩]⟩
def sysUser : Sys Fed4 := exComp exUser (by decide +kernel)

theorem sysUser_accepted : sysUser.Accepted := exComp_accepted (by decide)

def locM0 : LocTree Fed4 := .leaf (.simple "M0") (some (constrain univ 2 0 (.LE 3))) .initial
def locM1 : LocTree Fed4 := .leaf (.simple "M1") none .normal

theorem locM0_inv {v : Val} : v ∈ InvSet locM0 ↔ Valid (dim Fed4) v ∧ v 2 ≤ 3 := by
  have : v ∈ InvSet locM0 ↔ v ∈ den (constrain (univ : Fed4) 2 0 (.LE 3)) :=
    ⟨fun h => h _ rfl, fun h i hi => by cases hi; exact h⟩
  rw [this, den_constrain _ _ _ _ (by decide) (by decide), den_univ]
  constructor
  · rintro ⟨h, k⟩
    have := h.1
    simp [Ineq.Sat] at k
    exact ⟨h, by linarith⟩
  · rintro ⟨h, k⟩
    have := h.1
    refine ⟨h, ?_⟩
    simp [Ineq.Sat]; linarith

theorem sysUser_out0 : sysUser.ts.next locM0 "out" = .ok [⟨.simple "f2", univ, locM0, []⟩] := rfl
theorem sysUser_out1 : sysUser.ts.next locM1 "out" = .ok [⟨.simple "f1", univ, locM0, [⟨2, 0⟩]⟩] := rfl
theorem sysUser_go : sysUser.ts.next locM0 "go" = .ok [⟨.simple "f0", univ, locM1, []⟩] := rfl

theorem sysUser_enabled : sysUser.ts.InputEnabled := by
  intro l v hr i hi
  obtain ⟨⟨p, hp, rfl⟩, hv⟩ := Sys.Good.reach sysUser_accepted.good hr
  have hinv := Sys.Reach.inv hr
  have hi' : i = "out" := by
    have : sysUser.ts.inputs = ["out"] := by decide +kernel
    rw [this] at hi; simpa using hi
  subst hi'
  have hp' : p ∈ [(LocId.simple "M0", locM0), (LocId.simple "M1", locM1)] := hp
  simp only [List.mem_cons, List.not_mem_nil, or_false] at hp'
  rcases hp' with rfl | rfl
  · exact ⟨locM0, _, by decide +kernel, _, sysUser_out0, _, List.mem_singleton.2 rfl,
      ⟨by rw [den_univ]; exact hv, hinv⟩, rfl, rfl⟩
  · refine ⟨locM0, _, by decide +kernel, _, sysUser_out1, _, List.mem_singleton.2 rfl,
      ⟨by rw [den_univ]; exact hv, locM0_inv.2 ⟨?_, ?_⟩⟩, rfl, rfl⟩
    · exact assign_valid (i := 2) (c := ((0 : Int) : ℝ)) hv (by decide) (by decide) (by norm_num)
    · simp [runUpdates, assign]

theorem sysUser_consistent : sysUser.ts.Consistent := by
  have hi : sysUser.ts.inputs = ["out"] := by decide +kernel
  have ho : sysUser.ts.outputs = ["go"] := by decide +kernel
  refine ⟨locM0, rfl, locM0_inv.2 ⟨Sys.zeroVal_valid, by simp [zeroVal]⟩,
    fun l v => Valid (dim Fed4) v ∧ (l = locM1 ∨ l = locM0 ∧ v 2 ≤ 3),
    ⟨?_, ?_, ?_, ?_⟩, Sys.zeroVal_valid, .inr ⟨rfl, by simp [zeroVal]⟩⟩
  · rintro l v ⟨_, rfl | ⟨rfl, _⟩⟩ <;> rfl
  · rintro l v d ⟨hv, rfl | ⟨rfl, h⟩⟩ hd
    · exact ⟨delay_valid hv hd.1, .inl rfl⟩
    · obtain ⟨h1, h2⟩ := locM0_inv.1 (hd.2 d hd.1 le_rfl)
      exact ⟨h1, .inr ⟨rfl, h2⟩⟩
  · rintro l v i l' v' ⟨hv, h⟩ hin ⟨_, tr, hn, t, ht, hc, rfl, rfl⟩
    rw [hi, List.mem_singleton] at hin; subst hin
    have : t.target = locM0 := by
      rcases h with rfl | ⟨rfl, h⟩
      · rw [sysUser_out1] at hn; cases hn; rw [List.mem_singleton] at ht; subst ht; rfl
      · rw [sysUser_out0] at hn; cases hn; rw [List.mem_singleton] at ht; subst ht; rfl
    have hv' := hc.2
    rw [this] at hv' ⊢
    obtain ⟨h1, h2⟩ := locM0_inv.1 hv'
    exact ⟨h1, .inr ⟨rfl, h2⟩⟩
  · rintro l v ⟨hv, rfl | ⟨rfl, h⟩⟩
    · exact .inl fun d hd => ⟨hd, fun d _ _ i hi => by cases hi⟩
    · have h0 : delay (dim Fed4) v 0 = v := by
        funext i; simp [delay]
      refine .inr ⟨0, ⟨le_rfl, fun d' h1 h2 => ?_⟩, "go", by rw [ho]; simp, locM1, v,
        ⟨by decide +kernel, _, sysUser_go, _, List.mem_singleton.2 rfl,
          ⟨by rw [h0, den_univ]; exact hv, by intro i hi; cases hi⟩, rfl, h0.symm⟩, hv, .inl rfl⟩
      rw [le_antisymm h2 h1, h0]
      exact locM0_inv.2 ⟨hv, h⟩

def sysDuo : Sys Fed4 := getOk (Sys.newComposition sysA' sysUser) (by decide +kernel)

/-- The hypotheses can be met: the machine and its user, which has to act first, are consistent together. -/
example : sysDuo.ts.InputEnabled ∧ sysDuo.ts.Consistent :=
  C61_parts sysDuo (.composition (.part sysA'_accepted ⟨sysA'_enabled, sysA'_consistent⟩)
    (.part sysUser_accepted ⟨sysUser_enabled, sysUser_consistent⟩) (getOk_eq _)
    (by unfold Sys.DisjointClocks; decide +kernel))

example : sysDuo.ts.Consistent :=
  C61_composition sysA' sysUser sysDuo sysA'_accepted sysUser_accepted (getOk_eq _)
    (by unfold Sys.DisjointClocks; decide +kernel) sysA'_enabled sysUser_enabled sysA'_consistent
    sysUser_consistent

/-- The query looks at both parts, and both pass. -/
example : sysDuo.parts.length = 2 ∧ sysDuo.precheck (fun p => match p with
    | [false] => ⟨fun _ => ["go", "out"], fun _ => ["go"], fun _ => ["out"]⟩
    | _ => ⟨fun _ => ["out", "go"], fun _ => ["out"], fun _ => ["go"]⟩) 20 = .ok none :=
  ⟨by decide +kernel, passes_eq (by decide +kernel)⟩

/-- A component that has to output `o` within five time units, and one that knows the input `o` but does not
accept it where it starts. -/
def exHurry : Component := ⟨"S", ⟨[], [("x", 1)]⟩,
  [⟨"L0", some (.le (.var "x") (.int 5)), .initial, "NORMAL"⟩, ⟨"L1", none, .normal, "NORMAL"⟩],
  [⟨"e", "L0", "L1", .output, none, none, "o"⟩]⟩
def exDeaf : Component := ⟨"T", ⟨[], [("y", 2)]⟩,
  [⟨"M0", none, .initial, "NORMAL"⟩, ⟨"M1", none, .normal, "NORMAL"⟩],
  [⟨"f", "M1", "M1", .input, none, none, "o"⟩]⟩
def sysHurry : Sys Fed4 := exComp exHurry (by decide +kernel)
def sysDeaf : Sys Fed4 := exComp exDeaf (by decide +kernel)
def sysBlocked : Sys Fed4 := getOk (Sys.newComposition sysHurry sysDeaf) (by decide +kernel)

/-- Accepting every input is needed: the query succeeds for a composition of two components one of which does
not accept an output of the other, and the composition is stuck when time runs out. -/
theorem C61_needs_enabled : ∃ (l r s : Sys Fed4) (ord : List Bool → Orders), l.Accepted ∧ r.Accepted ∧
    Sys.newComposition l r = .ok s ∧ l.DisjointClocks r ∧ s.precheck ord 10 = .ok none ∧ ¬ s.ts.Consistent := by
  refine ⟨sysHurry, sysDeaf, sysBlocked, fun p => match p with
    | [false] => ⟨fun _ => ["o"], fun _ => [], fun _ => ["o"]⟩
    | _ => ⟨fun _ => ["o"], fun _ => ["o"], fun _ => []⟩, exComp_accepted (by decide),
    exComp_accepted (by decide), getOk_eq _, by unfold Sys.DisjointClocks; decide +kernel,
    passes_eq (by decide +kernel), ?_⟩
  let l0 : LocTree Fed4 := .node (.composition (.simple "L0") (.simple "M0"))
    (some (constrain univ 1 0 (.LE 5))) .initial
    (.leaf (.simple "L0") (some (constrain univ 1 0 (.LE 5))) .initial) (.leaf (.simple "M0") none .initial)
  have e1 : sysBlocked.ts.initialLoc = .ok (some l0) := rfl
  have ho : sysBlocked.ts.outputs = ["o"] := by decide +kernel
  have n0 : sysBlocked.ts.next l0 "o" = .ok [] := rfl
  rintro ⟨l, hl, _, C, hC, h0⟩
  rw [e1] at hl; cases hl
  rcases hC.progress h0 with h | ⟨d, _, o, hm, l', v', ⟨_, tr, hn, t, ht, _⟩, _⟩
  · exact bounded_not_forever rfl h
  · rw [ho, List.mem_singleton] at hm; subst hm
    rw [n0] at hn; cases hn; cases ht

/-- `T` knows the output `o` but does not produce it where it starts; `S` may produce it at once. -/
def exMutedT : Component := ⟨"T", ⟨[], [("x", 1)]⟩,
  [⟨"L0", none, .initial, "NORMAL"⟩, ⟨"L1", none, .normal, "NORMAL"⟩],
  [⟨"e", "L1", "L1", .output, none, none, "o"⟩]⟩
def exLoudS : Component := ⟨"S", ⟨[], [("y", 2)]⟩, [⟨"M0", none, .initial, "NORMAL"⟩],
  [⟨"f", "M0", "M0", .output, none, none, "o"⟩]⟩
def sysMutedT : Sys Fed4 := exComp exMutedT (by decide +kernel)
def sysLoudS : Sys Fed4 := exComp exLoudS (by decide +kernel)
def sysHopeless : Sys Fed4 := getOk (Sys.newQuotientUnchecked sysMutedT sysLoudS 3) (by decide +kernel)

/-- For quotients the property is false: the query for `T \\ S` looks at `T` and `S` only, and succeeds although
the quotient is inconsistent, because `S` can at once do what `T` forbids. -/
theorem C61_violated_quotient : ∃ (t s q : Sys Fed4) (ord : List Bool → Orders), t.Accepted ∧ s.Accepted ∧
    Sys.newQuotient ord 10 t s 3 = .ok q ∧ t.DisjointClocks s ∧ t.ts.InputEnabled ∧ s.ts.InputEnabled ∧
    t.ts.Consistent ∧ s.ts.Consistent ∧ q.precheck ord 10 = .ok none ∧ ¬ q.ts.Consistent := by
  have at' : sysMutedT.Accepted := exComp_accepted (by decide)
  have as' : sysLoudS.Accepted := exComp_accepted (by decide)
  have hdis : sysMutedT.DisjointClocks sysLoudS := by unfold Sys.DisjointClocks; decide +kernel
  have hq : Sys.newQuotientUnchecked sysMutedT sysLoudS 3 = .ok sysHopeless := getOk_eq _
  have h2 : Sys.newQuotient (fun _ => ⟨fun _ => ["o"], fun _ => [], fun _ => ["o"]⟩) 10 sysMutedT sysLoudS 3 =
      .ok sysHopeless := by
    have h : (Sys.newQuotient (fun _ => ⟨fun _ => ["o"], fun _ => [], fun _ => ["o"]⟩) 10 sysMutedT sysLoudS
      3).toBool = true := by decide +kernel
    have h2 := getOk_eq h
    have h3 := newQuotient_unchecked h2
    rw [hq] at h3
    rw [h2]
    exact h3.symm
  let lt : LocTree Fed4 := .leaf (.simple "L0") none .initial
  let ls : LocTree Fed4 := .leaf (.simple "M0") none .initial
  have it : sysMutedT.ts.initialLoc = .ok (some lt) := rfl
  have is' : sysLoudS.ts.initialLoc = .ok (some ls) := rfl
  have nt : sysMutedT.next lt "o" = .ok [] := rfl
  have ns : sysLoudS.next ls "o" = .ok [⟨.simple "f", univ, ls, []⟩] := rfl
  have wait : ∀ {l : LocTree Fed4} {v : Val}, l.inv = none → ∀ d : ℝ, 0 ≤ d → TS.CanDelay l v d :=
    fun h d hd => ⟨hd, fun d _ _ i hi => by rw [h] at hi; cases hi⟩
  have hit : sysMutedT.ts.inputs = [] := by decide +kernel
  have his : sysLoudS.ts.inputs = [] := by decide +kernel
  refine ⟨sysMutedT, sysLoudS, sysHopeless, _, at', as', h2, hdis, ?_, ?_, ?_, ?_, passes_eq (by decide +kernel), ?_⟩
  · intro l v _ i hi; rw [hit] at hi; cases hi
  · intro l v _ i hi; rw [his] at hi; cases hi
  · refine ⟨lt, it, (by intro i hi; cases hi), fun l _ => l = lt, ⟨?_, ?_, ?_, ?_⟩, rfl⟩
    · rintro l v rfl; rfl
    · rintro l v d rfl _; rfl
    · rintro l v i l' v' rfl hin _; rw [hit] at hin; cases hin
    · rintro l v rfl; exact .inl (wait rfl)
  · refine ⟨ls, is', (by intro i hi; cases hi), fun l _ => l = ls, ⟨?_, ?_, ?_, ?_⟩, rfl⟩
    · rintro l v rfl; rfl
    · rintro l v d rfl _; rfl
    · rintro l v i l' v' rfl hin _; rw [his] at hin; cases hin
    · rintro l v rfl; exact .inl (wait rfl)
  · rintro ⟨l, hl, _, C, hC, h0⟩
    have hl' : sysHopeless.ts.initialLoc = .ok (some (LocTree.merge lt ls)) := rfl
    rw [hl'] at hl; cases hl
    obtain ⟨fresh, _, _, _, hmv⟩ := C39_quotient_moves_partial at' as' (by decide) (by decide) hq hdis
    have ha : "o" ∈ sysHopeless.ts.inputs := by decide +kernel
    have hlt : sysMutedT.IsLoc lt := (at'.good.reach (.init it (by intro i hi; cases hi))).1
    have hls : sysLoudS.IsLoc ls := (as'.good.reach (.init is' (by intro i hi; cases hi))).1
    have := (hmv lt ls hlt hls "o" (by decide +kernel) (fun ts h => by rw [nt] at h; cases h; simp)
      (fun ts h => by rw [ns] at h; cases h; simp [NoConflict]) zeroVal Sys.zeroVal_valid _ _).2
      (.errorOutput (by decide +kernel) (by decide +kernel) ?_ ?_)
    · have := hC.safe (hC.input h0 ha this)
      exact absurd this (by decide)
    · exact ⟨(by intro i hi; cases hi), ls, zeroVal, (by decide +kernel), _, ns, _, List.mem_singleton.2 rfl,
        ⟨(by rw [den_univ]; exact Sys.zeroVal_valid), (by intro i hi; cases hi)⟩, rfl, rfl⟩
    · rintro ⟨_, l', v', _, tr, hn, t, ht, _⟩
      have hn : sysMutedT.next lt "o" = _ := hn
      rw [nt] at hn; cases hn; cases ht

end Reveaal
