import Verif.Props.C12
import Verif.Lemmas.QuotientDet
import Verif.Lemmas.Recipe

/-! # C13: determinism of a composed system follows from the checks on its parts -/

namespace Reveaal
open ZoneLib
variable {F : Type} [ZoneLib F]

/-- If both operands of a composition are deterministic, so is the composition. -/
theorem C13_composition {l r s : Sys F} (hl : l.Accepted) (hr : r.Accepted)
    (hs : Sys.newComposition l r = .ok s) (hdis : l.DisjointClocks r)
    (dl : l.ts.Deterministic) (dr : r.ts.Deterministic) : s.ts.Deterministic :=
  (Sys.isProd_composition hs).deterministic (Sys.Accepted.composition hl hr hs).good hl.good hr.good hdis
    dl dr

/-- If both operands of a conjunction are deterministic, so is the conjunction. -/
theorem C13_conjunction {l r s : Sys F} (hl : l.Accepted) (hr : r.Accepted)
    (hs : Sys.newConjunctionUnchecked l r = .ok s) (hdis : l.DisjointClocks r)
    (dl : l.ts.Deterministic) (dr : r.ts.Deterministic) : s.ts.Deterministic :=
  (Sys.isProd_conjunction hs).deterministic (Sys.Accepted.conjunction hl hr hs).good hl.good hr.good hdis
    dl dr

/-- If both operands of a quotient are deterministic, so is the quotient, although it gets into states its
operands do not get into: a pair of locations has no invariant.

Missing from the full property: that invariants are deadlines (hold earlier if they hold later) and that no
transition assigns one clock twice are used; `hf` says that `S` has no input with the name the quotient uses for
the input it adds, without which it is false (`C13_violated_quotient_input`). -/
theorem C13_quotient_partial {T S Q : Sys F} {clock : Nat} (hT : T.Accepted) (hS : S.Accepted) (h0 : 0 < clock)
    (hn : clock < dim F) (hQ : Sys.newQuotientUnchecked T S clock = .ok Q) (hdis : T.DisjointClocks S)
    (cT : T.CalmUpdates) (cS : S.CalmUpdates) (pT : ∀ l, T.IsLoc l → PastClosed l)
    (pS : ∀ l, S.IsLoc l → PastClosed l)
    (hf : ∀ a ∈ Q.inputs, a ∉ T.inputs → a ∉ S.outputs → a ∉ S.inputs)
    (dT : T.ts.Deterministic) (dS : S.ts.Deterministic) : Q.ts.Deterministic :=
  Sys.QuotParts.deterministic ⟨hT.good, hS.good, h0, hn, hdis, cT, cS, pT, pS⟩ hQ dT dS hf

namespace Sys

/-- A system built from compiled components, with different clocks in different components and no edge assigning two
values to one clock.  The operands of a quotient have invariants that are deadlines, and the second does not use the
name of the input the quotient adds. -/
inductive PlainProduct : Sys F → Prop
  | comp {order : List (LocId × LocTree F) → List (LocId × LocTree F)} {c : Component}
      {ins outs : List String} {id : Nat} {x : CompComp F} (hc : c.Ok (dim F))
      (ho : ∀ l, (order l).Perm l) (h : CompComp.compileWith order c ins outs id = .ok x)
      (ha : x.EdgesAgree) : PlainProduct (.comp x)
  | composition {l r s : Sys F} (hl : PlainProduct l) (hr : PlainProduct r)
      (h : newComposition l r = .ok s) (hd : l.DisjointClocks r) : PlainProduct s
  | conjunction {l r s : Sys F} (hl : PlainProduct l) (hr : PlainProduct r)
      (h : newConjunctionUnchecked l r = .ok s) (hd : l.DisjointClocks r) : PlainProduct s
  | quotient {t s q : Sys F} {clock : Nat} (ht : PlainProduct t) (hs : PlainProduct s) (h0 : 0 < clock)
      (hn : clock < dim F) (h : newQuotientUnchecked t s clock = .ok q) (hd : t.DisjointClocks s)
      (pt : ∀ l, t.IsLoc l → PastClosed l) (ps : ∀ l, s.IsLoc l → PastClosed l)
      (hf : ∀ a ∈ q.inputs, a ∉ t.inputs → a ∉ s.outputs → a ∉ s.inputs) : PlainProduct q

theorem PlainProduct.accepted {s : Sys F} (h : s.PlainProduct) : s.Accepted := by
  induction h with
  | comp hc ho h _ => exact .comp hc ho h
  | composition _ _ h _ ihl ihr => exact .composition ihl ihr h
  | conjunction _ _ h _ ihl ihr => exact .conjunction ihl ihr h
  | quotient _ _ h0 hn h _ _ _ _ iht ihs => exact .quotient iht ihs h0 hn h

theorem PlainProduct.calm {s : Sys F} (h : s.PlainProduct) : s.CalmUpdates := by
  induction h with
  | comp _ _ _ ha => exact fun _ _ _ _ hn => ha.next hn
  | composition hl hr h hd ihl ihr => exact calm_composition h hl.accepted.good hr.accepted.good hd ihl ihr
  | conjunction hl hr h hd ihl ihr => exact calm_conjunction h hl.accepted.good hr.accepted.good hd ihl ihr
  | quotient ht hs h0 hn h hd pt ps _ iht ihs =>
    exact QuotParts.calm ⟨ht.accepted.good, hs.accepted.good, h0, hn, hd, iht, ihs, pt, ps⟩ h

/-- The oracle returns, for every component of the tree, iteration orders of its action set. -/
def ActOrders : Sys F → (List Bool → Orders) → Prop
  | .comp c, ord => ∀ k, (Sys.comp c).ts.IsActions ((ord []).acts k)
  | .composition l r _ _ _ _ _, ord => l.ActOrders (fun p => ord (false :: p)) ∧
      r.ActOrders (fun p => ord (true :: p))
  | .conjunction l r _ _, ord => l.ActOrders (fun p => ord (false :: p)) ∧
      r.ActOrders (fun p => ord (true :: p))
  | .quotient t s _ _ _ _, ord => t.ActOrders (fun p => ord (false :: p)) ∧
      s.ActOrders (fun p => ord (true :: p))

end Sys

/-- The tool's determinism check of a whole system (which only looks at the components one by one) is
right for every system built with composition and conjunction: if it succeeds, the system is
deterministic in every concrete state it gets into. -/
theorem C13_check {s : Sys F} (hs : s.PlainProduct) (ord : List Bool → Orders) (hord : s.ActOrders ord)
    (fuel : Nat) (h : s.checkDet ord fuel = .ok none) : s.ts.Deterministic := by
  induction hs generalizing ord with
  | comp hc ho hx ha =>
    exact C12_deterministic_partial _ (.comp hc ho hx) _ hord ha.updatesAgree fuel h
  | composition hl hr hs hd ihl ihr =>
    have hp := hs
    obtain ⟨_, rfl⟩ := Sys.newComposition_eq hs
    rw [Sys.checkDet] at h
    obtain ⟨o, h1, h⟩ := bind_ok h
    cases o with
    | some f => cases h
    | none => exact C13_composition hl.accepted hr.accepted hp hd (ihl _ hord.1 h1) (ihr _ hord.2 h)
  | conjunction hl hr hs hd ihl ihr =>
    have hp := hs
    obtain ⟨_, _, rfl⟩ := Sys.newConjunction_eq hs
    rw [Sys.checkDet] at h
    obtain ⟨o, h1, h⟩ := bind_ok h
    cases o with
    | some f => cases h
    | none => exact C13_conjunction hl.accepted hr.accepted hp hd (ihl _ hord.1 h1) (ihr _ hord.2 h)
  | quotient ht hs h0 hn hq hd pt ps hf iht ihs =>
    have hp := hq
    have hf := hf
    obtain ⟨_, rfl⟩ := Sys.newQuotient_eq hq
    rw [Sys.checkDet] at h
    obtain ⟨o, h1, h⟩ := bind_ok h
    cases o with
    | some f => cases h
    | none =>
      exact C13_quotient_partial ht.accepted hs.accepted h0 hn hp hd ht.calm hs.calm pt ps hf
        (iht _ hord.1 h1) (ihs _ hord.2 h)

/-- The hypotheses are met by `A || B`. -/
theorem sysAB_plain : sysAB.PlainProduct :=
  .composition (.comp exA_ok (fun _ => .refl _) (getOk_eq _) (by decide +kernel))
    (.comp exB_ok (fun _ => .refl _) (getOk_eq _) (by decide +kernel)) sysAB_eq sysAB_disjoint

example : sysAB.ts.Deterministic :=
  C13_check sysAB_plain (fun _ => ⟨fun _ => ["out", "go"], fun _ => [], fun _ => []⟩) (by
    obtain ⟨_, h⟩ := Sys.newComposition_eq sysAB_eq
    rw [h]
    have hn : ["out", "go"].Nodup := by decide
    refine ⟨fun _ => ⟨hn, fun a => ?_⟩, fun _ => ⟨hn, fun a => ?_⟩⟩
    · have h1 : sysA.ts.inputs = ["go"] := by decide +kernel
      have h2 : sysA.ts.outputs = ["out"] := by decide +kernel
      change a ∈ ["out", "go"] ↔ a ∈ sysA.ts.inputs ∨ a ∈ sysA.ts.outputs
      rw [h1, h2]; simp [or_comm]
    · have h1 : sysB.ts.inputs = ["out"] := by decide +kernel
      have h2 : sysB.ts.outputs = ["go"] := by decide +kernel
      change a ∈ ["out", "go"] ↔ a ∈ sysB.ts.inputs ∨ a ∈ sysB.ts.outputs
      rw [h1, h2]; simp) 10 (passes_eq (by decide +kernel))

/-- The hypotheses are met by the quotient `C \\ A`. -/
theorem sysCA_plain : sysCA.PlainProduct :=
  .quotient (.comp exC_ok (fun _ => .refl _) (getOk_eq _) (by decide +kernel))
    (.comp exA_ok (fun _ => .refl _) (getOk_eq _) (by decide +kernel)) (by decide) (by decide)
    (getOk_eq _ : Sys.newQuotientUnchecked sysC sysA 2 = .ok sysCA) (by unfold Sys.DisjointClocks; decide +kernel)
    (CompComp.past_of_pastB (by decide +kernel)) (CompComp.past_of_pastB (by decide +kernel)) (by decide +kernel)

example : sysCA.ts.Deterministic :=
  C13_check sysCA_plain (fun _ => ⟨fun _ => ["out", "go"], fun _ => [], fun _ => []⟩) (by
    have h0 : Sys.newQuotientUnchecked sysC sysA 2 = .ok sysCA := getOk_eq _
    obtain ⟨_, h⟩ := Sys.newQuotient_eq h0
    rw [h]
    have hn : ["out", "go"].Nodup := by decide
    refine ⟨fun _ => ⟨hn, fun a => ?_⟩, fun _ => ⟨hn, fun a => ?_⟩⟩
    · have h1 : sysC.ts.inputs = ["go"] := by decide +kernel
      have h2 : sysC.ts.outputs = ["out"] := by decide +kernel
      change a ∈ ["out", "go"] ↔ a ∈ sysC.ts.inputs ∨ a ∈ sysC.ts.outputs
      rw [h1, h2]; simp [or_comm]
    · have h1 : sysA.ts.inputs = ["go"] := by decide +kernel
      have h2 : sysA.ts.outputs = ["out"] := by decide +kernel
      change a ∈ ["out", "go"] ↔ a ∈ sysA.ts.inputs ∨ a ∈ sysA.ts.outputs
      rw [h1, h2]; simp [or_comm]) 10 (passes_eq (by decide +kernel))

/-! ## A name clash -/

/-- Ticks at least once per time unit. -/
def exTicker : Component := ⟨"T", ⟨[], [("x", 1)]⟩, [⟨"L", some (.le (.var "x") (.int 1)), .initial, "NORMAL"⟩],
  [⟨"e", "L", "L", .output, none, some [⟨"x", .int 0⟩], "tick"⟩]⟩

/-- Listens to an input that happens to have the name quotients use for their own input. -/
def exClash : Component := ⟨"S", ⟨[], [("y", 2)]⟩, [⟨"M", none, .initial, "NORMAL"⟩],
  [⟨"f", "M", "M", .input, none, none, "quotient_new_input0"⟩]⟩

/-- Orders for the checks of the two operands. -/
def exTickerOrders : List Bool → Orders
  | false :: _ => ⟨fun _ => ["tick"], fun _ => [], fun _ => ["tick"]⟩
  | _ => ⟨fun _ => ["quotient_new_input0"], fun _ => ["quotient_new_input0"], fun _ => []⟩

/-- Without the assumption about the input of the quotient it is false: the two operands pass all checks, are
deterministic and use different clocks, their invariants are deadlines, and the quotient is built, but after two time
units its own input leads to the error location and also to another place. -/
theorem C13_violated_quotient_input : ∃ (T S Q : Sys Fed4), T.PlainProduct ∧ S.PlainProduct ∧
    (∀ l, T.IsLoc l → PastClosed l) ∧ (∀ l, S.IsLoc l → PastClosed l) ∧ T.DisjointClocks S ∧
    Sys.newQuotient exTickerOrders 10 T S 3 = .ok Q ∧ T.ts.Deterministic ∧ S.ts.Deterministic ∧
    ¬ Q.ts.Deterministic := by
  let t : CompComp Fed4 := getOk (CompComp.compile id exTicker 0) (by decide +kernel)
  let s : CompComp Fed4 := getOk (CompComp.compile id exClash 1) (by decide +kernel)
  obtain ⟨Q, hQ⟩ : ∃ Q, Sys.newQuotient exTickerOrders 10 (.comp t) (.comp s) 3 = .ok Q :=
    ⟨_, getOk_eq (by decide +kernel)⟩
  have hu : Sys.newQuotientUnchecked (.comp t) (.comp s) 3 = .ok Q := newQuotient_unchecked hQ
  have tok : exTicker.Ok (dim Fed4) := Component.ok_of_okB (by decide)
  have sok : exClash.Ok (dim Fed4) := Component.ok_of_okB (by decide)
  have pt : (Sys.comp t).PlainProduct := .comp tok (fun _ => .refl _) (getOk_eq _) (by decide +kernel)
  have ps : (Sys.comp s).PlainProduct := .comp sok (fun _ => .refl _) (getOk_eq _) (by decide +kernel)
  have hdis : (Sys.comp t).DisjointClocks (.comp s) := by unfold Sys.DisjointClocks; decide +kernel
  refine ⟨.comp t, .comp s, Q, pt, ps, CompComp.past_of_pastB (by decide +kernel),
    CompComp.past_of_pastB (by decide +kernel), hdis, hQ, ?_, ?_, ?_⟩
  · refine C12_deterministic_partial _ pt.accepted (fun _ => ["tick"]) (fun _ => ⟨by decide, fun a => ?_⟩)
      (CompComp.EdgesAgree.updatesAgree (by decide +kernel)) 10 (passes_eq (by decide +kernel))
    have h1 : (Sys.comp t).ts.inputs = [] := by decide +kernel
    have h2 : (Sys.comp t).ts.outputs = ["tick"] := by decide +kernel
    rw [h1, h2]; simp
  · refine C12_deterministic_partial _ ps.accepted (fun _ => ["quotient_new_input0"])
      (fun _ => ⟨by decide, fun a => ?_⟩) (CompComp.EdgesAgree.updatesAgree (by decide +kernel)) 10
      (passes_eq (by decide +kernel))
    have h1 : (Sys.comp s).ts.inputs = ["quotient_new_input0"] := by decide +kernel
    have h2 : (Sys.comp s).ts.outputs = [] := by decide +kernel
    rw [h1, h2]; simp
  · intro hdet
    obtain ⟨_, hq⟩ := Sys.newQuotient_eq hu
    have e1 : setUnion (Sys.comp t).inputs (Sys.comp s).outputs = [] := by decide +kernel
    have e2 : setUnion (setDiff (Sys.comp t).outputs (Sys.comp s).outputs)
        (setDiff (Sys.comp s).inputs (Sys.comp t).inputs) = ["tick", "quotient_new_input0"] := by decide +kernel
    have e3 : Sys.freshInput ([] : List String) ([] : List String).length 0 = "quotient_new_input0" := by decide +kernel
    rw [e1, e2, e3] at hq
    generalize setUnion [] ["quotient_new_input0"] = ins at hq
    subst hq
    let lt : LocTree Fed4 := .leaf (.simple "L") (some (constrain univ 1 0 (.LE 1))) .initial
    let ls : LocTree Fed4 := .leaf (.simple "M") none .initial
    let a := "quotient_new_input0"
    let v : Val := delay (dim Fed4) zeroVal 2
    have hv : Valid (dim Fed4) v := delay_valid Sys.zeroVal_valid (by norm_num)
    have hi : Sys.initialLoc (.quotient (.comp t) (.comp s) ins ["tick", "quotient_new_input0"] 3 a) =
        .ok (some (LocTree.merge lt ls)) := by
      unfold Sys.initialLoc
      have h1 : (Sys.comp t).initialLoc = .ok (some lt) := rfl
      have h2 : (Sys.comp s).initialLoc = .ok (some ls) := rfl
      rw [h1, h2]; rfl
    have hr : TS.Reach (Sys.ts (.quotient (.comp t) (.comp s) ins ["tick", "quotient_new_input0"] 3 a))
        (LocTree.merge lt ls) v :=
      .delay (.init hi (by intro i hi; cases hi)) ⟨by norm_num, fun _ _ _ i hi => by cases hi⟩
    have ha : Sys.hasAction (.quotient (.comp t) (.comp s) ins ["tick", "quotient_new_input0"] 3 a) a = true := by
      rw [Sys.hasAction_iff]; right; rw [Sys.outputs_quotient]; simp [a]
    have hS : (Sys.comp s).ts.Act ls v a ls v :=
      ⟨by decide +kernel, [⟨.simple "f", univ, ls, []⟩], rfl, _, List.mem_singleton.2 rfl,
        ⟨by rw [den_univ]; exact hv, by intro i hi; cases hi⟩, rfl, rfl⟩
    have hlt : (Sys.comp t).IsLoc lt := Sys.initial_isLoc pt.accepted.good rfl
    have hls : (Sys.comp s).IsLoc ls := Sys.initial_isLoc ps.accepted.good rfl
    have rule := fun x' v' => Sys.quotient_moves (T := .comp t) (S := .comp s) (ins := ins)
      (outs := ["tick", "quotient_new_input0"]) (clock := 3) (fresh := a) pt.accepted ps.accepted (by decide) (by decide) hdis hlt hls ha
      (fun ts hts => pt.calm lt a ts hlt hts) (fun ts hts => ps.calm ls a ts hls hts) hv (x' := x') (v' := v')
    have h1 :=
      (rule (LocTree.merge lt ls) v).2 (.onlyS (by decide +kernel) (by intro i hi; cases hi) hS)
    have h2 := (rule (LocTree.errorLoc 3) (assign v 3 0)).2 (by
      refine .errorDelay rfl (fun hm => ?_) (by intro i hi; cases hi)
      have := hm _ rfl
      rw [den_constrain _ _ _ _ (by decide) (by decide)] at this
      have := this.2
      simp [Ineq.Sat, v, delay, zeroVal, dim_fed4] at this)
    have := (Sys.act_unique hdet hr h1 h2).1
    cases this

end Reveaal
