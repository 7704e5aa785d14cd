import Verif.Lemmas.Join
import Verif.Props.C08
import Verif.Props.C16

/-!
# C45: refinement is a preorder, conjunction is the greatest lower bound

The statements are about the relation `Refines`, which a successful check establishes (C16).
-/

namespace Reveaal
open ZoneLib
variable {F : Type} [ZoneLib F]

/-- Related states: if the left one satisfies its invariant, so does the right one. -/
theorem IsRefinement.inv {S T : TS F} {R : LocTree F → Val → LocTree F → Val → Prop}
    (h : IsRefinement S T R) {l m : LocTree F} {v w : Val} (hr : R l v m w) (hl : v ∈ InvSet l) :
    w ∈ InvSet m :=
  canDelay_zero.1 (h.delay hr (canDelay_zero.2 hl)).1

/-- Every system whose inputs and outputs are disjoint refines itself. -/
theorem C45_reflexive (s : Sys F) (hs : s.Accepted) (hio : ∀ a ∈ s.inputs, a ∉ s.outputs) :
    Refines s.ts s.ts := by
  refine ⟨⟨hio, fun a ho hi => hio a hi ho, fun _ h => h, fun _ h => h⟩, ?_⟩
  obtain ⟨o, h1, _⟩ := hs.good.initial
  cases o with
  | none => exact .inl ⟨h1, h1⟩
  | some l =>
    refine .inr ⟨l, l, h1, h1, fun _ => ⟨fun l v m w => l = m ∧ v = w, ⟨?_, ?_, ?_⟩, rfl, rfl⟩⟩
    · rintro l v m w o l' v' ⟨rfl, rfl⟩ ho ha
      exact ⟨fun _ => ⟨l', v', ha, rfl, rfl⟩, fun hn => absurd ho hn⟩
    · rintro l v m w o l' v' ⟨rfl, rfl⟩ ho ha
      exact ⟨fun _ => ⟨l', v', ha, rfl, rfl⟩, fun hn => absurd ho hn⟩
    · rintro l v m w d ⟨rfl, rfl⟩ hd
      exact ⟨hd, rfl, rfl⟩

/-- Refinement is transitive, as long as the outputs of the first system are not inputs of the last. -/
theorem C45_transitive_partial (S T U : TS F) (hST : Refines S T) (hTU : Refines T U)
    (hio : ∀ a ∈ S.outputs, a ∉ U.inputs) : Refines S U := by
  have f1 := hST.alphabets
  have f2 := hTU.alphabets
  refine ⟨⟨fun a h => f2.inOut a (f1.inputs a h), hio, fun a h => f2.inputs a (f1.inputs a h),
    fun a h => f1.outputs a (f2.outputs a h)⟩, ?_⟩
  rcases hST.states with ⟨s1, s2⟩ | ⟨l, m, s1, s2, h1⟩ <;>
    rcases hTU.states with ⟨t1, t2⟩ | ⟨m', n, t1, t2, h2⟩
  · exact .inl ⟨s1, t2⟩
  · rw [s2] at t1; cases t1
  · rw [s2] at t1; cases t1
  · rw [s2] at t1; cases t1
    refine .inr ⟨l, n, s1, t2, fun hz => ?_⟩
    obtain ⟨R, hR, r0⟩ := h1 hz
    obtain ⟨R', hR', r0'⟩ := h2 (hR.inv r0 hz)
    refine ⟨fun l v n x => ∃ m w, R l v m w ∧ R' m w n x, ⟨?_, ?_, ?_⟩, m, zeroVal, r0, r0'⟩
    · rintro l v n x o l' v' ⟨m, w, r, r'⟩ ho ha
      by_cases hoT : o ∈ T.outputs
      · obtain ⟨m', w', ha', r1⟩ := (hR.output r ho ha).1 hoT
        obtain ⟨k1, k2⟩ := hR'.output r' hoT ha'
        refine ⟨fun hoU => ?_, fun hoU => ⟨m', w', r1, k2 hoU⟩⟩
        obtain ⟨n', x', ha'', r2⟩ := k1 hoU
        exact ⟨n', x', ha'', m', w', r1, r2⟩
      · exact ⟨fun hoU => absurd (f2.outputs o hoU) hoT, fun _ => ⟨m, w, (hR.output r ho ha).2 hoT, r'⟩⟩
    · rintro l v n x i n' x' ⟨m, w, r, r'⟩ hi ha
      by_cases hiT : i ∈ T.inputs
      · obtain ⟨m', w', ha', r1⟩ := (hR'.input r' hi ha).1 hiT
        obtain ⟨k1, k2⟩ := hR.input r hiT ha'
        refine ⟨fun hiS => ?_, fun hiS => ⟨m', w', k2 hiS, r1⟩⟩
        obtain ⟨l', v', ha'', r2⟩ := k1 hiS
        exact ⟨l', v', ha'', m', w', r2, r1⟩
      · exact ⟨fun hiS => absurd (f1.inputs i hiS) hiT, fun _ => ⟨m, w, r, (hR'.input r' hi ha).2 hiT⟩⟩
    · rintro l v n x d ⟨m, w, r, r'⟩ hd
      obtain ⟨hd1, r1⟩ := hR.delay r hd
      obtain ⟨hd2, r2⟩ := hR'.delay r' hd1
      exact ⟨hd2, _, _, r1, r2⟩

/-- In every state the system gets into, every input is accepted. -/
def TS.InputEnabled (ts : TS F) : Prop :=
  ∀ l v, ts.Reach l v → ∀ i ∈ ts.inputs, ∃ l' v', ts.Act l v i l' v'

namespace Sys

omit [ZoneLib F] in
theorem hasAction_of_input {s : Sys F} {a : String} (h : a ∈ s.inputs) : s.hasAction a = true :=
  hasAction_iff.2 (.inl h)
omit [ZoneLib F] in
theorem hasAction_of_output {s : Sys F} {a : String} (h : a ∈ s.outputs) : s.hasAction a = true :=
  hasAction_iff.2 (.inr h)

/-- A joint behaviour with the alphabet of one participant refines it, if the other accepts all inputs. -/
theorem Join.refines {s p q : Sys F} {J : LocTree F → LocTree F → LocTree F → Prop} (h : s.Join p q J)
    (hs : s.Good) (hp : p.Good) (hq : q.Good) (hdis : p.DisjointClocks q)
    (hi : ∀ a, a ∈ s.inputs ↔ a ∈ p.inputs) (ho : ∀ a, a ∈ s.outputs ↔ a ∈ p.outputs)
    (hqi : ∀ a, a ∈ q.inputs ↔ a ∈ p.inputs)
    (hio : ∀ a ∈ p.inputs, a ∉ p.outputs) (hpi : ∀ a, p.initialLoc = .ok (some a) → ∃ b, q.initialLoc = .ok (some b))
    (hen : q.ts.InputEnabled) : Refines s.ts p.ts := by
  refine ⟨⟨fun a h1 => hio a ((hi a).1 h1), fun a h1 h2 => hio a h2 ((ho a).1 h1), fun a h1 => (hi a).1 h1,
    fun a h1 => (ho a).2 h1⟩, ?_⟩
  obtain ⟨os, hos, _⟩ := hs.initial
  cases os with
  | none =>
    refine .inl ⟨hos, ?_⟩
    rcases h.initNone hos with h1 | h1
    · exact h1
    · obtain ⟨op, hop, _⟩ := hp.initial
      cases op with
      | none => exact hop
      | some a =>
        obtain ⟨b, hb⟩ := hpi a hop
        rw [h1] at hb; cases hb
  | some x =>
    obtain ⟨a, b, ha, hb, hx⟩ := h.init x hos
    refine .inr ⟨x, a, hos, ha, fun hz => ⟨fun x v m w => s.ts.Reach x v ∧ p.ts.Reach m w ∧
      (∀ i ∈ p.clocks, v i = w i) ∧ ∃ n u, J x m n ∧ q.ts.Reach n u ∧ ∀ i ∈ q.clocks, v i = u i,
      ⟨?_, ?_, ?_⟩, .init hos hz, .init ha ((h.inv hx).1 hz).1, fun _ _ => rfl, b, zeroVal, hx,
        .init hb ((h.inv hx).1 hz).2, fun _ _ => rfl⟩⟩
    · rintro x v m w o x' v' ⟨rs, rp, hag, n, u, hj, rq, hag'⟩ hos ha
      refine ⟨fun _ => ?_, fun hn => absurd ((ho o).1 hos) hn⟩
      have hv := (hs.reach rs).2
      obtain ⟨a', b', hj', pp, pq, _⟩ := (h.act hj (hp.reach rp).1 (hq.reach rq).1 hv ha.1).1 ha
      obtain ⟨w1, hw1, hag1⟩ := pp.1 (hasAction_of_output ((ho o).1 hos))
      obtain ⟨w', ha', hag2⟩ := act_transport hp (hp.reach rp).1 hv (hp.reach rp).2 hag hw1
      obtain ⟨u', ru', hag3⟩ := follow_act hq rq hv hag' pq
      exact ⟨a', w', ha', .act rs ha, .act rp ha', fun i hi => (hag1 i hi).trans (hag2 i hi), b', u', hj', ru',
        hag3⟩
    · rintro x v m w i m' w' ⟨rs, rp, hag, n, u, hj, rq, hag'⟩ hin ha
      refine ⟨fun _ => ?_, fun hn => absurd ((hi i).2 hin) hn⟩
      have hv := (hs.reach rs).2
      obtain ⟨w1, hw1, hag1⟩ := act_transport hp (hp.reach rp).1 (hp.reach rp).2 hv
        (fun j hj => (hag j hj).symm) ha
      obtain ⟨n', u1, hu1⟩ := hen n u rq i ((hqi i).2 hin)
      obtain ⟨u2, hu2, hag2⟩ := act_transport hq (hq.reach rq).1 (hq.reach rq).2 hv
        (fun j hj => (hag' j hj).symm) hu1
      obtain ⟨x', v', hact, hj', e1, e2⟩ := h.sync hq hdis hj (hp.reach rp).1 (hq.reach rq).1 hv
        (hasAction_of_input ((hi i).2 hin)) hw1 hu2
      exact ⟨x', v', hact, .act rs hact, .act rp ha, fun j hj => (e1 j hj).trans (hag1 j hj).symm, n', u1,
        hj', .act rq hu1, fun j hj => (e2 j hj).trans (hag2 j hj).symm⟩
    · rintro x v m w d ⟨rs, rp, hag, n, u, hj, rq, hag'⟩ hd
      have hv := (hs.reach rs).2
      obtain ⟨hdp, hdq⟩ := (h.canDelay hj).1 hd
      have hdp' := CanDelay.congr (hp.invLocal _ (hp.reach rp).1) hv (hp.reach rp).2 hag hdp
      have hdq' := CanDelay.congr (hq.invLocal _ (hq.reach rq).1) hv (hq.reach rq).2 hag' hdq
      exact ⟨hdp', .delay rs hd, .delay rp hdp', fun i hi => delay_agree (hag i hi), n, _, hj,
        .delay rq hdq', fun i hi => delay_agree (hag' i hi)⟩

end Sys

/-- A conjunction refines each of its operands, if they have the same actions and the other one accepts
all inputs. -/
theorem C45_conjunction_lower_partial (l r s : Sys F) (hl : l.Accepted) (hr : r.Accepted)
    (h : Sys.newConjunctionUnchecked l r = .ok s) (hdis : l.DisjointClocks r)
    (hi : ∀ a, a ∈ l.inputs ↔ a ∈ r.inputs) (ho : ∀ a, a ∈ l.outputs ↔ a ∈ r.outputs)
    (hinit : (∃ a, l.initialLoc = .ok (some a)) ↔ ∃ b, r.initialLoc = .ok (some b)) :
    (r.ts.InputEnabled → Refines s.ts l.ts) ∧ (l.ts.InputEnabled → Refines s.ts r.ts) := by
  have hs : s.Good := (Sys.Accepted.conjunction hl hr h).good
  have hj := Sys.join_conjunction hl.good hr.good hdis h
  obtain ⟨h1, h2, rfl⟩ := Sys.newConjunction_eq h
  have hdis' : r.DisjointClocks l := fun i hi hc => hdis i hc hi
  constructor
  · intro hen
    refine hj.refines hs hl.good hr.good hdis (fun a => ?_) (fun a => ?_) (fun a => (hi a).symm) ?_
      (fun a ha => hinit.1 ⟨a, ha⟩) hen
    · rw [Sys.inputs_conjunction, mem_setInter, ← hi]; tauto
    · rw [Sys.outputs_conjunction, mem_setInter, ← ho]; tauto
    · intro a ha hc
      exact h1 a ha ((ho a).1 hc)
  · intro hen
    refine hj.swap.refines hs hr.good hl.good hdis' (fun a => ?_) (fun a => ?_) hi ?_
      (fun a ha => hinit.2 ⟨a, ha⟩) hen
    · rw [Sys.inputs_conjunction, mem_setInter, hi]; tauto
    · rw [Sys.outputs_conjunction, mem_setInter, ho]; tauto
    · intro a ha hc
      exact h1 a ((hi a).2 ha) hc

/-- A conjunction is above every deterministic system that refines both operands, if these have the same
outputs. -/
theorem C45_conjunction_greatest (u l r s : Sys F) (hu : u.Accepted) (hl : l.Accepted) (hr : r.Accepted)
    (h : Sys.newConjunctionUnchecked l r = .ok s) (hdis : l.DisjointClocks r)
    (ho : ∀ a, a ∈ l.outputs ↔ a ∈ r.outputs) (hdet : u.ts.Deterministic)
    (h1 : Refines u.ts l.ts) (h2 : Refines u.ts r.ts) : Refines u.ts s.ts := by
  have hs : s.Good := (Sys.Accepted.conjunction hl hr h).good
  have hj := Sys.join_conjunction hl.good hr.good hdis h
  have hu := hu.good
  have hl := hl.good
  have hr := hr.good
  have hin : ∀ a, a ∈ s.inputs ↔ a ∈ l.inputs ∧ a ∈ r.inputs := by
    obtain ⟨_, _, rfl⟩ := Sys.newConjunction_eq h
    intro a; rw [Sys.inputs_conjunction, mem_setInter]
  have hout : ∀ a, a ∈ s.outputs ↔ a ∈ l.outputs ∧ a ∈ r.outputs := by
    obtain ⟨_, _, rfl⟩ := Sys.newConjunction_eq h
    intro a; rw [Sys.outputs_conjunction, mem_setInter]
  have f1 := h1.alphabets
  have f2 := h2.alphabets
  refine ⟨⟨fun a ha hc => f1.inOut a ha ((hout a).1 hc).1, fun a ha hc => f1.outIn a ha ((hin a).1 hc).1,
    fun a ha => (hin a).2 ⟨f1.inputs a ha, f2.inputs a ha⟩, fun a ha => f1.outputs a ((hout a).1 ha).1⟩, ?_⟩
  rcases h1.states with ⟨a1, a2⟩ | ⟨k, m, a1, a2, g1⟩ <;>
    rcases h2.states with ⟨b1, b2⟩ | ⟨k', n, b1, b2, g2⟩
  · refine .inl ⟨a1, ?_⟩
    obtain ⟨os, hos, _⟩ := hs.initial
    cases os with
    | none => exact hos
    | some x =>
      obtain ⟨a, b, ha, _, _⟩ := hj.init x hos
      have a2 : l.initialLoc = _ := a2
      rw [a2] at ha; cases ha
  · rw [a1] at b1; cases b1
  · rw [a1] at b1; cases b1
  · rw [a1] at b1; cases b1
    obtain ⟨os, hos, _⟩ := hs.initial
    have a2 : l.initialLoc = _ := a2
    have b2 : r.initialLoc = _ := b2
    cases os with
    | none =>
      rcases hj.initNone hos with hc | hc
      · rw [a2] at hc; cases hc
      · rw [b2] at hc; cases hc
    | some x =>
      obtain ⟨m', n', ha, hb, hx⟩ := hj.init x hos
      rw [a2] at ha; cases ha
      rw [b2] at hb; cases hb
      refine .inr ⟨k, x, a1, hos, fun hz => ?_⟩
      obtain ⟨R, hR, r0⟩ := g1 hz
      obtain ⟨R', hR', r0'⟩ := g2 hz
      refine ⟨fun k v x y => ∃ m w n z, u.ts.Reach k v ∧ s.IsLoc x ∧ R k v m w ∧ R' k v n z ∧
        Located l r (fun x a b => LocTree.compose a b .conjunction = .ok x) x y m w n z,
        ⟨?_, ?_, ?_⟩, m, zeroVal, n, zeroVal, .init a1 hz, ?_, r0, r0', ?_⟩
      · rintro k v x y o k' v' ⟨m, w, n, z, hre, hxl, r1, r2, hloc⟩ hou hact
        obtain ⟨g1, g2⟩ := hR.output r1 hou hact
        obtain ⟨g3, g4⟩ := hR'.output r2 hou hact
        refine ⟨fun hos => ?_, fun hos => ?_⟩
        · have hos : o ∈ s.outputs := hos
          have hosp := (hout o).1 hos
          obtain ⟨m', w', e1, q1⟩ := g1 hosp.1
          obtain ⟨n', z', e2, q2⟩ := g3 hosp.2
          obtain ⟨x', y', e3, hloc'⟩ := hloc.sync hj hs hl hr hdis hxl (Sys.hasAction_of_output hos) e1 e2
          exact ⟨x', y', e3, m', w', n', z', .act hre hact, (Sys.act_valid hs hxl hloc.valid e3).1, q1, q2,
            hloc'⟩
        · have n1 : o ∉ l.outputs := fun hc => hos ((hout o).2 ⟨hc, (ho o).1 hc⟩)
          have n2 : o ∉ r.outputs := fun hc => n1 ((ho o).2 hc)
          exact ⟨m, w, n, z, .act hre hact, hxl, g2 n1, g4 n2, hloc⟩
      · rintro k v x y i x' y' ⟨m, w, n, z, hre, hxl, r1, r2, hloc⟩ his hact
        have hisp := (hin i).1 his
        obtain ⟨m', w', n', z', e1, e2, hloc'⟩ := hloc.act_both hj hs hl hr hxl hact
          (Sys.hasAction_of_input hisp.1) (Sys.hasAction_of_input hisp.2)
        obtain ⟨g1, g2⟩ := hR.input r1 hisp.1 e1
        obtain ⟨g3, g4⟩ := hR'.input r2 hisp.2 e2
        have hxl' := (Sys.act_valid hs hxl hloc.valid hact).1
        refine ⟨fun hiu => ?_, fun hiu => ⟨m', w', n', z', hre, hxl', g2 hiu, g4 hiu, hloc'⟩⟩
        obtain ⟨k1, v1, c1, q1⟩ := g1 hiu
        obtain ⟨k2, v2, c2, q2⟩ := g3 hiu
        obtain ⟨rfl, rfl⟩ := Sys.act_unique hdet hre c1 c2
        exact ⟨k1, v1, c1, m', w', n', z', .act hre c1, hxl', q1, q2, hloc'⟩
      · rintro k v x y d ⟨m, w, n, z, hre, hxl, r1, r2, hloc⟩ hd
        obtain ⟨d1, q1⟩ := hR.delay r1 hd
        obtain ⟨d2, q2⟩ := hR'.delay r2 hd
        exact ⟨(hloc.canDelay hj hl hr).2 ⟨d1, d2⟩, m, _, n, _, .delay hre hd, hxl, q1, q2, hloc.delayed hd.1⟩
      · obtain ⟨o, e1, e2⟩ := hs.initial
        rw [hos] at e1; cases e1; exact e2 _ rfl
      · refine ⟨hx, ?_, ?_, Sys.zeroVal_valid, Sys.zeroVal_valid, Sys.zeroVal_valid, fun _ _ => rfl,
          fun _ _ => rfl⟩
        · obtain ⟨o, e1, e2⟩ := hl.initial
          rw [a2] at e1; cases e1; exact e2 _ rfl
        · obtain ⟨o, e1, e2⟩ := hr.initial
          rw [b2] at e1; cases e1; exact e2 _ rfl

/-! ## Examples -/

/-- No disjunction, as a test. -/
def BoolE.noOrB : BoolE → Bool
  | .and l r => l.noOrB && r.noOrB
  | .or _ _ => false
  | _ => true

theorem BoolE.noOr_of_B : ∀ {g : BoolE}, g.noOrB = true → g.NoOr := by
  intro g
  induction g with
  | and l r hl hr =>
    intro h
    unfold BoolE.noOrB at h
    rw [Bool.and_eq_true] at h
    exact ⟨hl h.1, hr h.2⟩
  | or => intro h; cases h
  | _ => intro _; trivial

theorem exComp_convex {c : Component} {h : (CompComp.compile (F := Fed4) id c 0).toBool = true}
    (hc : c.okB 4 = true) (hn : c.locations.all (fun l => l.invariant.all BoolE.noOrB) = true) :
    (exComp c h).ConvexInvs := by
  refine Sys.convex_comp (Component.ok_of_okB hc) (fun _ => .refl _) (getOk_eq _) ?_
  intro l hl g hg
  have := List.all_eq_true.1 hn l hl
  rw [hg] at this
  exact BoolE.noOr_of_B this

/-- A passed check between two example components, the second without an initial invariant, gives
refinement (an instance of C16). -/
theorem exRefines {c d : Component} {h1 : (CompComp.compile (F := Fed4) id c 0).toBool = true}
    {h2 : (CompComp.compile (F := Fed4) id d 0).toBool = true} (hc : c.okB 4 = true) (hd : d.okB 4 = true)
    (hdis : (exComp c h1).DisjointClocks (exComp d h2))
    (ha1 : (getOk (CompComp.compile (F := Fed4) id c 0) h1).EdgesAgree)
    (ha2 : (getOk (CompComp.compile (F := Fed4) id d 0) h2).EdgesAgree)
    (hn : d.locations.all (fun l => l.invariant.all BoolE.noOrB) = true)
    (hi : ∀ m, (exComp d h2).ts.initialLoc = .ok (some m) → m.inv = none)
    (ord1 ord2 : List Bool → Orders) (fuel : Nat)
    (h : checkRefinement (exComp c h1) (exComp d h2) ord1 ord2 (exComp c h1).ts.outputs
      (exComp d h2).ts.inputs fuel = .ok none) : Refines (exComp c h1).ts (exComp d h2).ts := by
  refine C16_refines_partial _ _ (exComp_accepted hc) (exComp_accepted hd) hdis ha1.updatesAgree
    ha2.updatesAgree (fun m _ hr => exComp_convex hd hn m (Sys.Good.reach (exComp_accepted hd).good hr).1) ?_
    ord1 ord2 _ _ (fun _ => Iff.rfl) (fun _ => Iff.rfl) fuel h
  intro l m _ hm d hd
  refine ⟨hd.1, fun _ _ _ i hii => ?_⟩
  rw [hi m hm] at hii; cases hii

/-- Outputs `a`; knows nothing; accepts `a`. -/
def exOut : Component := ⟨"S", ⟨[], [("x", 1)]⟩, [⟨"L0", none, .initial, "NORMAL"⟩],
  [⟨"e", "L0", "L0", .output, none, none, "a"⟩]⟩
def exMute : Component := ⟨"T", ⟨[], [("y", 2)]⟩, [⟨"M0", none, .initial, "NORMAL"⟩], []⟩
def exIn : Component := ⟨"U", ⟨[], [("z", 3)]⟩, [⟨"N0", none, .initial, "NORMAL"⟩],
  [⟨"g", "N0", "N0", .input, none, none, "a"⟩]⟩

/-- The restriction is needed: refinement as the tool checks it is not transitive, because `T` may know
nothing of an action that is an output of `S` and an input of `U`. -/
theorem C45_violated_transitive : ∃ S T U : Sys Fed4, S.Accepted ∧ T.Accepted ∧ U.Accepted ∧
    Refines S.ts T.ts ∧ Refines T.ts U.ts ∧ ¬ Refines S.ts U.ts := by
  refine ⟨exComp exOut (by decide +kernel), exComp exMute (by decide +kernel), exComp exIn (by decide +kernel),
    exComp_accepted (by decide), exComp_accepted (by decide), exComp_accepted (by decide), ?_, ?_, fun h => ?_⟩
  · refine exRefines (by decide) (by decide) (by unfold Sys.DisjointClocks; decide +kernel)
      (by decide +kernel) (by decide +kernel) (by decide) (fun m hm => ?_) (exOrdersO [] ["a"])
      (exOrdersO [] []) 10 (passes_eq (by decide +kernel))
    have : (exComp exMute (by decide +kernel)).ts.initialLoc = .ok (some (.leaf (.simple "M0") none .initial)) := rfl
    rw [this] at hm; cases hm; rfl
  · refine exRefines (by decide) (by decide) (by unfold Sys.DisjointClocks; decide +kernel)
      (by decide +kernel) (by decide +kernel) (by decide) (fun m hm => ?_) (exOrdersO [] [])
      (exOrdersO ["a"] []) 10 (passes_eq (by decide +kernel))
    have : (exComp exIn (by decide +kernel)).ts.initialLoc = .ok (some (.leaf (.simple "N0") none .initial)) := rfl
    rw [this] at hm; cases hm; rfl
  · exact h.alphabets.outIn "a" (by decide +kernel) (by decide +kernel)

/-- The machine `A` accepting `go` at all times, and the machine `C` likewise. -/
def exA' : Component := { exA with edges := exA.edges ++ [⟨"e2", "L1", "L1", .input, none, none, "go"⟩] }
def exC' : Component := { exC with edges := exC.edges ++ [⟨"g2", "N1", "N1", .input, none, none, "go"⟩] }

def sysA' : Sys Fed4 := exComp exA' (by decide +kernel)
def sysC' : Sys Fed4 := exComp exC' (by decide +kernel)

theorem sysA'_accepted : sysA'.Accepted := exComp_accepted (by decide)
theorem sysC'_accepted : sysC'.Accepted := exComp_accepted (by decide)

theorem exDet {c : Component} {h : (CompComp.compile (F := Fed4) id c 0).toBool = true} (hc : c.okB 4 = true)
    (hi : (exComp c h).ts.inputs = ["go"]) (ho : (exComp c h).ts.outputs = ["out"])
    (ha : (getOk (CompComp.compile (F := Fed4) id c 0) h).EdgesAgree) (fuel : Nat)
    (hp : checkDeterminism (exComp c h).ts (fun _ => ["go", "out"]) fuel = .ok none) :
    (exComp c h).ts.Deterministic :=
  C12_deterministic_partial _ (exComp_accepted hc) (fun _ => ["go", "out"])
    (fun _ => ⟨by decide, fun a => by rw [hi, ho]; simp⟩) ha.updatesAgree fuel hp

/-- Every move on an input is one loop or a reset. -/
theorem sysA'_enabled : sysA'.ts.InputEnabled := by
  intro l v hr i hi
  have hloc := (Sys.Good.reach sysA'_accepted.good hr)
  have hinv := Sys.Reach.inv hr
  have hi' : i = "go" := by
    have : sysA'.ts.inputs = ["go"] := by decide +kernel
    rw [this] at hi; simpa using hi
  subst hi'
  obtain ⟨p, hp, rfl⟩ := hloc.1
  let l0 : LocTree Fed4 := .leaf (.simple "L0") none .initial
  let l1 : LocTree Fed4 := .leaf (.simple "L1") (some (constrain univ 1 0 (.LE 5))) .normal
  have hp' : p ∈ [(LocId.simple "L0", l0), (LocId.simple "L1", l1)] := hp
  simp only [List.mem_cons, List.not_mem_nil, or_false] at hp'
  rcases hp' with rfl | rfl
  · refine ⟨l1, _, ?_, [⟨.simple "e0", univ, l1, [⟨1, 0⟩]⟩], rfl, _, List.mem_singleton.2 rfl, ⟨?_, ?_⟩, rfl, rfl⟩
    · decide +kernel
    · rw [den_univ]; exact hloc.2
    · intro i hi
      cases hi
      rw [den_constrain _ _ _ _ (by decide) (by decide), den_univ]
      refine ⟨assign_valid (i := 1) (c := ((0 : Int) : ℝ)) hloc.2 (by decide) (by decide) (by norm_num), ?_⟩
      have := hloc.2.1
      simp [runUpdates, Ineq.Sat, assign, this]
  · refine ⟨l1, _, ?_, [⟨.simple "e2", univ, l1, []⟩], rfl, _, List.mem_singleton.2 rfl, ⟨?_, ?_⟩, rfl, rfl⟩
    · decide +kernel
    · rw [den_univ]; exact hloc.2
    · exact hinv

/-- A machine with clock 2 that answers within `lo` to `hi` time units and accepts `go` at all times. -/
def exM (lo hi : Int) : Component := ⟨"D", ⟨[], [("y", 2)]⟩,
  [⟨"K0", none, .initial, "NORMAL"⟩, ⟨"K1", some (.le (.var "y") (.int hi)), .normal, "NORMAL"⟩],
  [⟨"h0", "K0", "K1", .input, none, some [⟨"y", .int 0⟩], "go"⟩,
   ⟨"h1", "K1", "K0", .output, some (.ge (.var "y") (.int lo)), none, "out"⟩,
   ⟨"h2", "K1", "K1", .input, none, none, "go"⟩]⟩
def sysD : Sys Fed4 := exComp (exM 1 6) (by decide +kernel)
def sysE : Sys Fed4 := exComp (exM 3 4) (by decide +kernel)

theorem refines_CA : Refines sysC'.ts sysA'.ts := by
  refine exRefines (by decide) (by decide) (by unfold Sys.DisjointClocks; decide +kernel)
    (by decide +kernel) (by decide +kernel) (by decide) (fun m hm => ?_) exOrders exOrders 20
    (passes_eq (by decide +kernel))
  have : sysA'.ts.initialLoc = .ok (some (.leaf (.simple "L0") none .initial)) := rfl
  have hm : sysA'.ts.initialLoc = _ := hm
  rw [this] at hm; cases hm; rfl

theorem refines_AD : Refines sysA'.ts sysD.ts := by
  refine exRefines (by decide) (by decide) (by unfold Sys.DisjointClocks; decide +kernel)
    (by decide +kernel) (by decide +kernel) (by decide) (fun m hm => ?_) exOrders exOrders 20
    (passes_eq (by decide +kernel))
  have : sysD.ts.initialLoc = .ok (some (.leaf (.simple "K0") none .initial)) := rfl
  have hm : sysD.ts.initialLoc = _ := hm
  rw [this] at hm; cases hm; rfl

theorem refines_EA : Refines sysE.ts sysA'.ts := by
  refine exRefines (by decide) (by decide) (by unfold Sys.DisjointClocks; decide +kernel)
    (by decide +kernel) (by decide +kernel) (by decide) (fun m hm => ?_) exOrders exOrders 20
    (passes_eq (by decide +kernel))
  have : sysA'.ts.initialLoc = .ok (some (.leaf (.simple "L0") none .initial)) := rfl
  have hm : sysA'.ts.initialLoc = _ := hm
  rw [this] at hm; cases hm; rfl

theorem refines_EC : Refines sysE.ts sysC'.ts := by
  refine exRefines (by decide) (by decide) (by unfold Sys.DisjointClocks; decide +kernel)
    (by decide +kernel) (by decide +kernel) (by decide) (fun m hm => ?_) exOrders exOrders 20
    (passes_eq (by decide +kernel))
  have : sysC'.ts.initialLoc = .ok (some (.leaf (.simple "N0") none .initial)) := rfl
  have hm : sysC'.ts.initialLoc = _ := hm
  rw [this] at hm; cases hm; rfl

/-- `C' && A'` -/
def sysC'A' : Sys Fed4 := getOk (Sys.newConjunctionUnchecked sysC' sysA') (by decide +kernel)
theorem sysC'A'_eq : Sys.newConjunctionUnchecked sysC' sysA' = .ok sysC'A' := getOk_eq _

theorem sysE_deterministic : sysE.ts.Deterministic :=
  exDet (by decide) (by decide +kernel) (by decide +kernel) (by decide +kernel) 10 (passes_eq (by decide +kernel))

theorem acts_CA : (∀ a, a ∈ sysC'.inputs ↔ a ∈ sysA'.inputs) ∧ ∀ a, a ∈ sysC'.outputs ↔ a ∈ sysA'.outputs := by
  have h1 : sysC'.inputs = sysA'.inputs := by decide +kernel
  have h2 : sysC'.outputs = sysA'.outputs := by decide +kernel
  rw [h1, h2]; exact ⟨fun _ => Iff.rfl, fun _ => Iff.rfl⟩

/-- The hypotheses of the four theorems can be met. -/
theorem C45_example : Refines sysA.ts sysA.ts ∧ Refines sysC'.ts sysD.ts ∧ Refines sysC'A'.ts sysC'.ts ∧
    Refines sysE.ts sysC'A'.ts := by
  have hd : sysC'.DisjointClocks sysA' := by unfold Sys.DisjointClocks; decide +kernel
  refine ⟨C45_reflexive sysA sysA_accepted (by decide +kernel),
    C45_transitive_partial _ _ _ refines_CA refines_AD (by decide +kernel),
    (C45_conjunction_lower_partial sysC' sysA' sysC'A' sysC'_accepted sysA'_accepted sysC'A'_eq hd acts_CA.1
      acts_CA.2 ⟨fun _ => ⟨_, rfl⟩, fun _ => ⟨_, rfl⟩⟩).1 sysA'_enabled,
    C45_conjunction_greatest sysE sysC' sysA' sysC'A' (exComp_accepted (by decide)) sysC'_accepted
      sysA'_accepted sysC'A'_eq hd acts_CA.2 sysE_deterministic refines_EC refines_EA⟩

/-- A conjunction need not refine its operands when these have different outputs: the tool then rejects the
alphabets. -/
theorem C45_violated_conjunction_outputs : ∃ l r s : Sys Fed4, l.Accepted ∧ r.Accepted ∧
    l.DisjointClocks r ∧ Sys.newConjunctionUnchecked l r = .ok s ∧ ¬ Refines s.ts l.ts := by
  refine ⟨sysA', exComp exMute (by decide +kernel), getOk (Sys.newConjunctionUnchecked sysA'
    (exComp exMute (by decide +kernel))) (by decide +kernel), sysA'_accepted, exComp_accepted (by decide),
    by unfold Sys.DisjointClocks; decide +kernel, getOk_eq _, fun h => ?_⟩
  have h1 := h.alphabets.outputs "out" (by decide +kernel)
  revert h1
  decide +kernel

/-- Nor when the other operand refuses an input, even with the same actions. -/
theorem C45_violated_conjunction_input : ∃ l r s : Sys Fed4, l.Accepted ∧ r.Accepted ∧
    l.DisjointClocks r ∧ (∀ a, a ∈ l.inputs ↔ a ∈ r.inputs) ∧ (∀ a, a ∈ l.outputs ↔ a ∈ r.outputs) ∧
    Sys.newConjunctionUnchecked l r = .ok s ∧ ¬ Refines s.ts l.ts := by
  let deaf : Component := ⟨"D", ⟨[], [("y", 2)]⟩, [⟨"K0", none, .initial, "NORMAL"⟩],
    [⟨"h0", "K0", "K0", .input, some (.bool false), none, "a"⟩]⟩
  refine ⟨exComp exIn (by decide +kernel), exComp deaf (by decide +kernel),
    getOk (Sys.newConjunctionUnchecked (exComp exIn (by decide +kernel)) (exComp deaf (by decide +kernel)))
      (by decide +kernel), exComp_accepted (by decide), exComp_accepted (by decide),
    by unfold Sys.DisjointClocks; decide +kernel, ?_, ?_, getOk_eq _, fun h => ?_⟩
  · have h1 : (exComp exIn (by decide +kernel)).inputs = (exComp deaf (by decide +kernel)).inputs := by
      decide +kernel
    rw [h1]; exact fun _ => Iff.rfl
  · have h1 : (exComp exIn (by decide +kernel)).outputs = (exComp deaf (by decide +kernel)).outputs := by
      decide +kernel
    rw [h1]; exact fun _ => Iff.rfl
  · let n0 : LocTree Fed4 := .leaf (.simple "N0") none .initial
    let k0 : LocTree Fed4 := .leaf (.simple "K0") none .initial
    let x0 : LocTree Fed4 := .node (.conjunction (.simple "N0") (.simple "K0")) none .initial n0 k0
    have e1 : (getOk (Sys.newConjunctionUnchecked (exComp exIn (by decide +kernel))
      (exComp deaf (by decide +kernel))) (by decide +kernel)).ts.initialLoc = .ok (some x0) := rfl
    have e2 : (exComp exIn (by decide +kernel)).ts.initialLoc = .ok (some n0) := rfl
    have n1 : (exComp exIn (by decide +kernel)).ts.next n0 "a" = .ok [⟨.simple "g", univ, n0, []⟩] := rfl
    have n2 : (getOk (Sys.newConjunctionUnchecked (exComp exIn (by decide +kernel))
      (exComp deaf (by decide +kernel))) (by decide +kernel)).ts.next x0 "a" = .ok [⟨.conjunction (.simple "g")
        (.simple "h0"), inter univ empty, x0, []⟩] := rfl
    rcases h.states with ⟨h, _⟩ | ⟨l, m, h1, h2, h⟩
    · rw [e1] at h; cases h
    · rw [e1] at h1; cases h1
      rw [e2] at h2; cases h2
      obtain ⟨R, hR, h0⟩ := h (by intro i hi; cases hi)
      obtain ⟨l', v', ⟨_, tr, hn, t, ht, hc, _, _⟩, _⟩ := (hR.input h0 (i := "a") (m' := n0)
        (w' := zeroVal) (by decide +kernel) ⟨by decide +kernel, _, n1, _, List.mem_singleton.2 rfl,
          ⟨by rw [den_univ]; exact Sys.zeroVal_valid, by intro i hi; cases hi⟩, rfl, rfl⟩).1 (by decide +kernel)
      rw [n2] at hn; cases hn
      rw [List.mem_singleton] at ht; subst ht
      have := hc.1
      rw [den_inter, den_empty] at this
      exact this.2

end Reveaal
