import Verif.Lemmas.Consistency
import Verif.Props.C16

/-! # C18: consistency verdicts

`isLeastConsistent` is the check run on components (`Sys.checkCons`) and on new conjunctions. -/

namespace Reveaal
open ZoneLib
variable {F : Type} [ZoneLib F]

/-- A negative verdict is right about the symbolic states of the search: either there is no initial state,
or no collection of consistent symbolic states contains the initial one. -/
theorem C18_failure_partial (ts : TS F) (ordI ordO : Nat → List String)
    (hI : ∀ k a, a ∈ ordI k → a ∈ ts.inputs) (hO : ∀ k, ∀ a ∈ ts.outputs, a ∈ ordO k) (fuel : Nat)
    (f : ConsFailure F) (h : isLeastConsistent ts ordI ordO fuel = .ok (some f)) :
    ts.initialState = .ok none ∨ ∃ s s', ts.initialState = .ok (some s) ∧ s.extrapolate ts = .ok s' ∧
      ∀ P, SymConsistent ts P → ¬ P s' := by
  unfold isLeastConsistent at h
  obtain ⟨o, hi, h⟩ := bind_ok h
  cases o with
  | none => exact .inl hi
  | some s =>
    obtain ⟨s', he, h⟩ := bind_ok h
    obtain ⟨⟨o, r⟩, hc, h⟩ := bind_ok h
    cases h
    exact .inr ⟨s, s', hi, he, fun P hP => consHelper_fail hI hO hP fuel s' [] f r hc⟩

theorem Sys.symReach_loc {s : Sys F} (hs : s.Good) {st : State F} (h : s.ts.SymReach st) :
    s.IsLoc st.loc := by
  induction h with
  | @init st st' hi he =>
    obtain ⟨b, _, he⟩ := bind_ok he
    cases he
    obtain ⟨ol, h1, hinit⟩ := hs.initial
    cases ol with
    | none =>
      have hi : s.initialState = _ := hi
      unfold Sys.initialState at hi; rw [h1] at hi; cases hi
    | some l =>
      rcases Sys.initialState_spec (s := s) h1 with ⟨h2, _⟩ | ⟨z, h2, h3⟩
      · rw [hi] at h2; cases h2
      · rw [hi] at h2; cases h2; exact hinit l rfl
  | @step st a st' _ ha hst ih =>
    obtain ⟨tr, hn, t, ht, hu, he⟩ := hst
    obtain ⟨b, _, he⟩ := bind_ok he
    cases he
    have ha : s.ts.hasAction a = true := by simpa [TS.hasAction] using ha
    obtain ⟨h1, h2⟩ := hs.next_ok ih ha hn t ht
    exact ((C05_use_transition t st h2.upd).2 hu).1 ▸ h1

/-- A positive verdict gives a strategy on sets of valuations, if the search never has a choice between
two outputs.
Missing from the full property: with a choice between outputs the verdict can be wrong
(`C18_violated_choice`); the strategy promises progress for some valuation of each set only, and single
states can be stuck (`C18_violated_covered`); and a consistent system can be rejected
(`C18_violated_rejected`). -/
theorem C18_success_partial (s : Sys F) (hs : s.Accepted) (ordI ordO : Nat → List String)
    (hI : ∀ k a, a ∈ ordI k ↔ a ∈ s.ts.inputs) (hO : ∀ k, (ordO k).Nodup ∧ ∀ a, a ∈ ordO k ↔ a ∈ s.ts.outputs)
    (hone : s.ts.OneOutput) (fuel : Nat) (h : isLeastConsistent s.ts ordI ordO fuel = .ok none) :
    ∃ R, RegionStrategy s.ts R := by
  have hs := hs.good
  unfold isLeastConsistent at h
  obtain ⟨o, hi, h⟩ := bind_ok h
  cases o with
  | none => cases h
  | some st =>
  obtain ⟨s', he, h⟩ := bind_ok h
  obtain ⟨⟨o, P⟩, hc, h⟩ := bind_ok h
  cases h
  have hgood := consHelper_spec (ts := s.ts) (ordI := ordI) (ordO := ordO) hI
    (fun k => ⟨(hO k).1, fun a ha => ((hO k).2 a).1 ha⟩) hone fuel
  have hreach : s.ts.SymReach s' := .init hi he
  obtain ⟨⟨_, hext⟩, hcov⟩ := hgood _ _ _ hreach hc
  have hproc : ∀ q ∈ P, ConsProcessed s.ts P q := fun q hq => (hext q hq).resolve_left (by simp)
  have hloc : ∀ q ∈ P, s.IsLoc q.loc := fun q hq => Sys.symReach_loc hs (hproc q hq).reach
  let R : LocTree F → Set Val → Prop := fun l Z =>
    (l.isUniversal = true ∧ Z = Set.univ) ∨ ∃ q ∈ P, l = q.loc ∧ Z = den q.zone
  have huni : ∀ l : LocTree F, l.isUniversal = true → l.isInconsistent = false := by
    intro l h; simp only [LocTree.isUniversal, decide_eq_true_eq] at h
    simp [LocTree.isInconsistent, h]
  -- a usable transition whose successor is covered leads into a region
  have into : ∀ q ∈ P, ∀ a trans, s.ts.hasAction a = true → s.ts.next q.loc a = .ok trans → ∀ t ∈ trans,
      (∃ ns, q.Usable t ∧ (t.useTransition q).2.extrapolate s.ts = .ok ns ∧ CoveredU P ns) →
      LeadsInto R (den q.zone) t := by
    rintro q hq a trans ha hn t ht ⟨ns, hu, hns, hcv⟩
    obtain ⟨htl, hg⟩ := hs.next_ok (hloc q hq) ha hn t ht
    obtain ⟨hl, hz⟩ := (C05_use_transition t q hg.upd).2 hu
    obtain ⟨b, _, hns⟩ := bind_ok hns
    cases hns
    rcases hcv with h | ⟨q', hq', he, hsub⟩
    · rw [hl] at h
      exact ⟨Set.univ, .inl ⟨h, rfl⟩, Set.subset_univ _⟩
    · rw [hl] at he
      refine ⟨den q'.zone, .inr ⟨q', hq', hs.eqv_eq htl (hloc q' hq') he, rfl⟩, ?_⟩
      rw [← hz]
      exact (extrapolate_sup _ _).trans hsub
  refine ⟨R, ⟨?_, ?_, ?_, ?_⟩⟩
  · intro l hl
    rcases Sys.initialState_spec hl with ⟨h2, _⟩ | ⟨z, h2, h3⟩
    · rw [hi] at h2; cases h2
    rw [hi] at h2; cases h2
    have hlr := Sys.symReach_loc hs hreach
    obtain ⟨b, _, he⟩ := bind_ok he
    cases he
    rcases hcov with h | ⟨q', hq', he, hsub⟩
    · exact ⟨Set.univ, .inl ⟨h, rfl⟩, by simp⟩
    · refine ⟨den q'.zone, .inr ⟨q', hq', hs.eqv_eq hlr (hloc q' hq') he, rfl⟩, fun d hd hv => ?_⟩
      refine hsub (extrapolate_sup _ _ ?_)
      rw [h3]
      exact ⟨Sys.delay_zero_init hd, hv⟩
  · rintro l Z (⟨h, _⟩ | ⟨q, hq, rfl, rfl⟩)
    · exact huni l h
    · exact (hproc q hq).safe
  · rintro l Z i trans t (⟨h, _⟩ | ⟨q, hq, rfl, rfl⟩) hun hin hn ht hne
    · rw [h] at hun; cases hun
    · have ha : s.ts.hasAction i = true := by simp [TS.hasAction, hin]
      obtain ⟨tr, hn', h'⟩ := (hproc q hq).input i hin
      rw [hn] at hn'; cases hn'
      have hu : q.Usable t :=
        (C05_use_transition t q (hs.next_ok (hloc q hq) ha hn t ht).2.upd).1.2 hne
      obtain ⟨ns, h1, h2⟩ := h' t ht hu
      exact into q hq i trans ha hn t ht ⟨ns, hu, h1, h2⟩
  · rintro l Z (⟨h, _⟩ | ⟨q, hq, rfl, rfl⟩) hun
    · rw [h] at hun; cases hun
    · rcases (hproc q hq).progress with h | ⟨o, ho, trans, hn, t, ht, hu, ns, h1, h2⟩
      · exact .inl ((canDelay_iff _).1 h)
      · have ha : s.ts.hasAction o = true := by simp [TS.hasAction, ho]
        exact .inr ⟨o, ho, trans, hn, t, ht,
          (C05_use_transition t q (hs.next_ok (hloc q hq) ha hn t ht).2.upd).1.1 hu,
          into q hq o trans ha hn t ht ⟨ns, hu, h1, h2⟩⟩

/-! ## Concrete cases -/

/-- The check ran to its end and rejected. -/
def rejects {X : Type} : Res (Option X) → Bool
  | .ok (some _) => true
  | _ => false

theorem rejects_eq {X : Type} {r : Res (Option X)} (h : rejects r = true) : ∃ x, r = .ok (some x) := by
  unfold rejects at h; split at h
  · exact ⟨_, rfl⟩
  · cases h

/-- Time cannot pass forever where a clock is bounded. -/
theorem bounded_not_forever {l : LocTree Fed4} {k : Int}
    (hl : l.inv = some (constrain univ 1 0 (.LE k))) {v : Val} :
    ¬ ∀ d : ℝ, 0 ≤ d → TS.CanDelay l v d := by
  intro h
  have hk : (0 : ℝ) ≤ |(k : ℝ)| + 1 := by positivity
  have h0 := (h _ hk).2 0 (le_refl _) hk _ hl
  have h1 := (h _ hk).2 _ hk (le_refl _) _ hl
  rw [den_constrain _ _ _ _ (by decide) (by decide)] at h0 h1
  have hv := h0.1
  rw [den_univ] at hv
  have hz := hv.1
  have hv := hv.2.1 1
  have h1 := h1.2
  simp [Ineq.Sat, delay, dim_fed4] at h1 hv hz
  have := le_abs_self (k : ℝ)
  linarith

/-- Two outputs, both to a place where time stops at 5 and nothing can be done. -/
def exTrap : Component := ⟨"S", ⟨[], [("x", 1)]⟩,
  [⟨"L0", some (.le (.var "x") (.int 5)), .initial, "NORMAL"⟩,
   ⟨"L1", some (.le (.var "x") (.int 5)), .normal, "NORMAL"⟩],
  [⟨"e", "L0", "L1", .output, none, none, "a"⟩, ⟨"f", "L0", "L1", .output, none, none, "b"⟩]⟩

/-- The full property is false: after the first output has failed, the place it led to counts as passed,
and the second output to the same place is taken for a success. -/
theorem C18_violated_choice :
    ∃ s : Sys Fed4, s.Accepted ∧ isLeastConsistent s.ts (fun _ => []) (fun _ => ["a", "b"]) 10 = .ok none ∧
      s.ts.inputs = [] ∧ s.ts.outputs = ["a", "b"] ∧ ¬ s.ts.Consistent := by
  refine ⟨exComp exTrap (by decide +kernel), exComp_accepted (by decide), passes_eq (by decide +kernel),
    by decide +kernel, by decide +kernel, ?_⟩
  let l0 : LocTree Fed4 := .leaf (.simple "L0") (some (constrain univ 1 0 (.LE 5))) .initial
  let l1 : LocTree Fed4 := .leaf (.simple "L1") (some (constrain univ 1 0 (.LE 5))) .normal
  have e1 : (exComp exTrap (by decide +kernel)).ts.initialLoc = .ok (some l0) := rfl
  have ho : (exComp exTrap (by decide +kernel)).ts.outputs = ["a", "b"] := by decide +kernel
  have na : (exComp exTrap (by decide +kernel)).ts.next l0 "a" = .ok [⟨.simple "e", univ, l1, []⟩] := rfl
  have nb : (exComp exTrap (by decide +kernel)).ts.next l0 "b" = .ok [⟨.simple "f", univ, l1, []⟩] := rfl
  have na' : (exComp exTrap (by decide +kernel)).ts.next l1 "a" = .ok [] := rfl
  have nb' : (exComp exTrap (by decide +kernel)).ts.next l1 "b" = .ok [] := rfl
  rintro ⟨l, hl, _, C, hC, h0⟩
  rw [e1] at hl; cases hl
  rcases hC.progress h0 with h | ⟨d, _, o, hm, l', v', ⟨_, tr, hn, t, ht, _, rfl, _⟩, h1⟩
  · exact bounded_not_forever rfl h
  · have ht : t.target = l1 := by
      rw [ho] at hm
      simp only [List.mem_cons, List.not_mem_nil, or_false] at hm
      rcases hm with rfl | rfl
      · rw [na] at hn; cases hn; rw [List.mem_singleton] at ht; rw [ht]
      · rw [nb] at hn; cases hn; rw [List.mem_singleton] at ht; rw [ht]
    rw [ht] at h1
    rcases hC.progress h1 with h | ⟨d, _, o, hm, l', v', ⟨_, tr, hn, t, ht, _⟩, _⟩
    · exact bounded_not_forever rfl h
    · rw [ho] at hm
      simp only [List.mem_cons, List.not_mem_nil, or_false] at hm
      rcases hm with rfl | rfl
      · rw [na'] at hn; cases hn; cases ht
      · rw [nb'] at hn; cases hn; cases ht

/-- Time stops at 5, but the only output is possible until 2. -/
def exLate : Component := ⟨"S", ⟨[], [("x", 1)]⟩,
  [⟨"L0", some (.le (.var "x") (.int 5)), .initial, "NORMAL"⟩, ⟨"L1", none, .normal, "NORMAL"⟩],
  [⟨"e", "L0", "L1", .output, some (.le (.var "x") (.int 2)), none, "a"⟩]⟩

/-- The full property is false: the check is content if some valuation of a symbolic state has a way out,
and the states in which the output is no longer possible are stuck. -/
theorem C18_violated_covered :
    ∃ s : Sys Fed4, s.Accepted ∧ isLeastConsistent s.ts (fun _ => []) (fun _ => ["a"]) 10 = .ok none ∧
      s.ts.inputs = [] ∧ s.ts.outputs = ["a"] ∧ ¬ s.ts.Consistent := by
  refine ⟨exComp exLate (by decide +kernel), exComp_accepted (by decide), passes_eq (by decide +kernel),
    by decide +kernel, by decide +kernel, ?_⟩
  let l0 : LocTree Fed4 := .leaf (.simple "L0") (some (constrain univ 1 0 (.LE 5))) .initial
  let l1 : LocTree Fed4 := .leaf (.simple "L1") none .normal
  have e1 : (exComp exLate (by decide +kernel)).ts.initialLoc = .ok (some l0) := rfl
  have ho : (exComp exLate (by decide +kernel)).ts.outputs = ["a"] := by decide +kernel
  have na : (exComp exLate (by decide +kernel)).ts.next l0 "a" =
    .ok [⟨.simple "e", constrain univ 1 0 (.LE 2), l1, []⟩] := rfl
  rintro ⟨l, hl, _, C, hC, h0⟩
  rw [e1] at hl; cases hl
  have hw : TS.CanDelay l0 zeroVal 3 := by
    refine ⟨by norm_num, fun d h0 h3 i hi => ?_⟩
    cases hi
    rw [den_constrain _ _ _ _ (by decide) (by decide)]
    refine ⟨by rw [den_univ]; exact delay_valid Sys.zeroVal_valid h0, ?_⟩
    simp [Ineq.Sat, delay, zeroVal, dim_fed4]
    linarith
  rcases hC.progress (hC.delay h0 hw) with h | ⟨d, hd, o, hm, l', v', ⟨_, tr, hn, t, ht, hc, rfl, _⟩, h1⟩
  · exact bounded_not_forever rfl h
  · rw [ho] at hm
    rw [List.mem_singleton] at hm; subst hm
    rw [na] at hn; cases hn; rw [List.mem_singleton] at ht; subst ht
    have hg := hc.1
    rw [den_constrain _ _ _ _ (by decide) (by decide)] at hg
    have := hg.2
    have hd := hd.1
    simp [Ineq.Sat, delay, zeroVal, dim_fed4] at this
    linarith

/-- The input leads nowhere: its target has an invariant that the reset makes false. -/
def exClosed : Component := ⟨"S", ⟨[], [("x", 1)]⟩,
  [⟨"L0", none, .initial, "NORMAL"⟩,
   ⟨"L1", some (.and (.ge (.var "x") (.int 3)) (.le (.var "x") (.int 5))), .normal, "NORMAL"⟩],
  [⟨"e", "L0", "L1", .input, none, some [⟨"x", .int 0⟩], "a"⟩]⟩

/-- The full property is false: the check rejects a system that waits in its initial location for ever,
because it lets time pass at the target of a transition before it looks at the invariant there, and so
enters a place that cannot be entered. -/
theorem C18_violated_rejected :
    ∃ s : Sys Fed4, s.Accepted ∧
      (∃ f, isLeastConsistent s.ts (fun _ => ["a"]) (fun _ => []) 10 = .ok (some f)) ∧
      s.ts.inputs = ["a"] ∧ s.ts.outputs = [] ∧ s.ts.Consistent := by
  refine ⟨exComp exClosed (by decide +kernel), exComp_accepted (by decide), rejects_eq (by decide +kernel),
    by decide +kernel, by decide +kernel, ?_⟩
  let l0 : LocTree Fed4 := .leaf (.simple "L0") none .initial
  let l1 : LocTree Fed4 := .leaf (.simple "L1")
    (some (inter (constrain univ 0 1 (.LE (-3))) (constrain univ 1 0 (.LE 5)))) .normal
  have e1 : (exComp exClosed (by decide +kernel)).ts.initialLoc = .ok (some l0) := rfl
  have hi : (exComp exClosed (by decide +kernel)).ts.inputs = ["a"] := by decide +kernel
  have na : (exComp exClosed (by decide +kernel)).ts.next l0 "a" =
    .ok [⟨.simple "e", univ, l1, [⟨1, 0⟩]⟩] := rfl
  refine ⟨l0, e1, (by intro i hi; cases hi), fun l v => l = l0, ⟨?_, ?_, ?_, ?_⟩, rfl⟩
  · rintro l v rfl; rfl
  · rintro l v d rfl _; rfl
  · rintro l v i l' v' rfl hin ⟨_, tr, hn, t, ht, hc, rfl, _⟩
    rw [hi] at hin
    rw [List.mem_singleton] at hin; subst hin
    rw [na] at hn; cases hn; rw [List.mem_singleton] at ht; subst ht
    have := hc.2 _ rfl
    rw [den_inter, den_constrain _ _ _ _ (by decide) (by decide)] at this
    have := this.1.2
    have hz : v ∈ den (univ : Fed4) := hc.1
    rw [den_univ] at hz
    have hz := hz.1
    simp [Ineq.Sat, runUpdates, assign] at this
    linarith
  · rintro l v rfl
    exact .inl fun d hd => ⟨hd, fun d _ _ i hi => by cases hi⟩

/-- In the machine `A` there is never a choice between outputs. -/
theorem sysA_oneOutput : sysA.ts.OneOutput := by
  have ho : sysA.ts.outputs = ["out"] := by decide +kernel
  intro st hr _
  have hl := Sys.symReach_loc sysA_accepted.good hr
  have hshort : ∀ trans, sysA.ts.next st.loc "out" = .ok trans → trans.length ≤ 1 := by
    obtain ⟨p, hp, hl⟩ := hl
    intro trans hn
    rw [← hl] at hn
    have hall : ∀ p ∈ (getOk (CompComp.compile (F := Fed4) id exA 0) (by decide +kernel)).locations,
        (match sysA.ts.next p.2 "out" with | .ok tr => decide (tr.length ≤ 1) | _ => true) = true := by
      decide +kernel
    have := hall p hp
    rw [hn] at this
    simpa using this
  constructor
  · intro o h trans hn
    rw [ho, List.mem_singleton] at h; subst h
    have := hshort trans hn
    match trans, this with
    | [], _ => exact .nil
    | [t], _ => exact List.pairwise_singleton _ _
  · intro o h o' h' hne
    rw [ho, List.mem_singleton] at h h'
    exact (hne (h.trans h'.symm)).elim

/-- The hypotheses can be met: the machine `A`, which has to answer within five time units after `go`, has
a strategy. -/
example : ∃ R, RegionStrategy sysA.ts R :=
  C18_success_partial sysA sysA_accepted (fun _ => ["go"]) (fun _ => ["out"])
    (fun _ a => by
      have : sysA.ts.inputs = ["go"] := by decide +kernel
      rw [this])
    (fun _ => ⟨by decide, fun a => by
      have : sysA.ts.outputs = ["out"] := by decide +kernel
      rw [this]⟩)
    sysA_oneOutput 10 (passes_eq (by decide +kernel))

/-- Without its answer the machine is rejected: after `go` it is stuck. -/
def exStuck : Component := ⟨"S", ⟨[], [("x", 1)]⟩,
  [⟨"L0", none, .initial, "NORMAL"⟩, ⟨"L1", some (.le (.var "x") (.int 5)), .normal, "NORMAL"⟩],
  [⟨"e", "L0", "L1", .input, none, some [⟨"x", .int 0⟩], "go"⟩]⟩

example : ∃ f, isLeastConsistent (exComp exStuck (by decide +kernel)).ts (fun _ => ["go"]) (fun _ => []) 10 =
    .ok (some f) := rejects_eq (by decide +kernel)

end Reveaal
