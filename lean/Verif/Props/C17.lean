import Verif.Lemmas.Refine
import Verif.Props.C12
import Verif.Examples

/-! # C17: refinement preconditions -/

namespace Reveaal
open ZoneLib
variable {F : Type} [ZoneLib F]

omit [ZoneLib F] in
theorem all_contains_iff {a b : List String} : (a.all fun x => b.contains x) = true ↔ ∀ x ∈ a, x ∈ b := by
  simp

/-- What the failures about alphabets say of the two systems.  The four tests are made in this order, and
the first that fails is reported. -/
def AlphabetFailure (S T : TS F) : RefFailure F → Prop
  | .notDisjoint true => ∃ a ∈ S.inputs, a ∈ T.outputs
  | .notDisjoint false => (∀ a ∈ S.inputs, a ∉ T.outputs) ∧ ∃ a ∈ T.inputs, a ∈ S.outputs
  | .notSubset true => (∀ a ∈ S.inputs, a ∉ T.outputs) ∧ (∀ a ∈ T.inputs, a ∉ S.outputs) ∧
      ∃ a ∈ S.inputs, a ∉ T.inputs
  | .notSubset false => (∀ a ∈ S.inputs, a ∉ T.outputs) ∧ (∀ a ∈ T.inputs, a ∉ S.outputs) ∧
      (∀ a ∈ S.inputs, a ∈ T.inputs) ∧ ∃ a ∈ T.outputs, a ∉ S.outputs
  | _ => False

omit [ZoneLib F] in
theorem alphabetFailure_iff {S T : TS F} {f : RefFailure F} :
    Refine.checkAlphabets S T = some f ↔ AlphabetFailure S T f := by
  have neg : ∀ {a b : List String}, setDisjoint a b = false ↔ ∃ x ∈ a, x ∈ b := by
    intro a b; rw [← Bool.not_eq_true, setDisjoint_iff]; push Not; rfl
  have neg' : ∀ {a b : List String}, (a.all fun x => b.contains x) = false ↔ ∃ x ∈ a, x ∉ b := by
    intro a b; rw [← Bool.not_eq_true, all_contains_iff]; push Not; rfl
  unfold Refine.checkAlphabets
  cases h1 : setDisjoint S.inputs T.outputs with
  | false =>
    have h1 := neg.1 h1
    simp only [Bool.not_false, if_true, Option.some.injEq]
    constructor
    · rintro rfl; exact h1
    · intro hf
      obtain ⟨a, ha, hb⟩ := h1
      unfold AlphabetFailure at hf
      split at hf
      · rfl
      · exact absurd hb (hf.1 a ha)
      · exact absurd hb (hf.1 a ha)
      · exact absurd hb (hf.1 a ha)
      · cases hf
  | true =>
  have h1 := setDisjoint_iff.1 h1
  simp only [Bool.not_true, Bool.false_eq_true, if_false]
  cases h2 : setDisjoint T.inputs S.outputs with
  | false =>
    have h2 := neg.1 h2
    simp only [Bool.not_false, if_true, Option.some.injEq]
    constructor
    · rintro rfl; exact ⟨h1, h2⟩
    · intro hf
      obtain ⟨a, ha, hb⟩ := h2
      unfold AlphabetFailure at hf
      split at hf
      · obtain ⟨a, ha, hb⟩ := hf; exact absurd hb (h1 a ha)
      · rfl
      · exact absurd hb (hf.2.1 a ha)
      · exact absurd hb (hf.2.1 a ha)
      · cases hf
  | true =>
  have h2 := setDisjoint_iff.1 h2
  simp only [Bool.not_true, Bool.false_eq_true, if_false]
  cases h3 : S.inputs.all fun a => T.inputs.contains a with
  | false =>
    have h3 := neg'.1 h3
    simp only [Bool.not_false, if_true, Option.some.injEq]
    constructor
    · rintro rfl; exact ⟨h1, h2, h3⟩
    · intro hf
      obtain ⟨a, ha, hb⟩ := h3
      unfold AlphabetFailure at hf
      split at hf
      · obtain ⟨a, ha, hb⟩ := hf; exact absurd hb (h1 a ha)
      · obtain ⟨_, a, ha, hb⟩ := hf; exact absurd hb (h2 a ha)
      · rfl
      · exact absurd (hf.2.2.1 a ha) hb
      · cases hf
  | true =>
  have h3 := all_contains_iff.1 h3
  simp only [Bool.not_true, Bool.false_eq_true, if_false]
  cases h4 : T.outputs.all fun a => S.outputs.contains a with
  | false =>
    have h4 := neg'.1 h4
    simp only [Bool.not_false, if_true, Option.some.injEq]
    constructor
    · rintro rfl; exact ⟨h1, h2, h3, h4⟩
    · intro hf
      obtain ⟨a, ha, hb⟩ := h4
      unfold AlphabetFailure at hf
      split at hf
      · obtain ⟨a, ha, hb⟩ := hf; exact absurd hb (h1 a ha)
      · obtain ⟨_, a, ha, hb⟩ := hf; exact absurd hb (h2 a ha)
      · obtain ⟨_, _, a, ha, hb⟩ := hf; exact absurd (h3 a ha) hb
      · rfl
      · cases hf
  | true =>
  have h4 := all_contains_iff.1 h4
  simp only [Bool.not_true, Bool.false_eq_true, if_false]
  constructor
  · intro h; cases h
  · intro hf
    unfold AlphabetFailure at hf
    split at hf
    · obtain ⟨a, ha, hb⟩ := hf; exact absurd hb (h1 a ha)
    · obtain ⟨_, a, ha, hb⟩ := hf; exact absurd hb (h2 a ha)
    · obtain ⟨_, _, a, ha, hb⟩ := hf; exact absurd (h3 a ha) hb
    · obtain ⟨_, _, _, a, ha, hb⟩ := hf; exact absurd (h4 a ha) hb
    · cases hf

omit [ZoneLib F] in
theorem checkAlphabets_none {S T : TS F} : Refine.checkAlphabets S T = none ↔ AlphabetsFit S T := by
  unfold Refine.checkAlphabets
  have e1 := setDisjoint_iff (a := S.inputs) (b := T.outputs)
  have e2 := setDisjoint_iff (a := T.inputs) (b := S.outputs)
  have e3 := all_contains_iff (a := S.inputs) (b := T.inputs)
  have e4 := all_contains_iff (a := T.outputs) (b := S.outputs)
  constructor
  · intro h
    split at h
    · cases h
    rename_i h1
    split at h
    · cases h
    rename_i h2
    split at h
    · cases h
    rename_i h3
    split at h
    · cases h
    rename_i h4
    rw [Bool.not_eq_true, Bool.not_eq_false'] at h1 h2 h3 h4
    exact ⟨e1.1 h1, fun a ha hb => e2.1 h2 a hb ha, e3.1 h3, e4.1 h4⟩
  · rintro ⟨h1, h2, h3, h4⟩
    rw [e1.2 h1, e2.2 (fun a ha hb => h2 a hb ha), e3.2 h3, e4.2 h4]
    rfl

/-- The failures that come out of the exploration. -/
def RefFailure.FromExploration : RefFailure F → Prop
  | .emptyChild _ | .emptyInitial | .cannotMatch _ _ | .cutsDelays _ _ => True
  | _ => False

omit [ZoneLib F] in
theorem validPairs_fail {f : RefFailure F} {r : PairResult} {a : String} {p : StatePair F}
    (h : r.check a p = some f) : f.FromExploration := by
  cases r <;> cases h <;> trivial

/-- Exploration only produces its own failures. -/
theorem explore_fail {S T : TS F} {ordO ordI : List String} {fuel : Nat} {f : RefFailure F}
    (h : Refine.explore S T ordO ordI fuel = .ok (some f)) : f.FromExploration := by
  have hout : ∀ cur as (c c' : RefCtx F) f, Refine.outputLoop S T cur as c = .ok (some f, c') →
      f.FromExploration := by
    intro cur as
    induction as with
    | nil => intro c c' f h; cases h
    | cons a as ih =>
      intro c c' f h
      rw [Refine.outputLoop] at h
      obtain ⟨_, _, h⟩ := bind_ok h
      obtain ⟨_, _, h⟩ := bind_ok h
      obtain ⟨⟨r, c1⟩, _, h⟩ := bind_ok h
      dsimp only at h
      split at h
      · rename_i hr; cases h; exact validPairs_fail hr
      · exact ih _ _ _ h
  have hin : ∀ cur as (c c' : RefCtx F) f, Refine.inputLoop S T cur as c = .ok (some f, c') →
      f.FromExploration := by
    intro cur as
    induction as with
    | nil => intro c c' f h; cases h
    | cons a as ih =>
      intro c c' f h
      rw [Refine.inputLoop] at h
      obtain ⟨_, _, h⟩ := bind_ok h
      obtain ⟨_, _, h⟩ := bind_ok h
      obtain ⟨⟨r, c1⟩, _, h⟩ := bind_ok h
      dsimp only at h
      split at h
      · rename_i hr; cases h; exact validPairs_fail hr
      · exact ih _ _ _ h
  have hmain : ∀ n (c c' : RefCtx F) f, Refine.mainLoop S T ordO ordI n c = .ok (some f, c') →
      f.FromExploration := by
    intro n
    induction n with
    | zero => intro c c' f h; cases h
    | succ n ih =>
      intro c c' f h
      rw [Refine.mainLoop] at h
      split at h
      · cases h
      · obtain ⟨⟨o, w⟩, _, h⟩ := bind_ok h
        obtain ⟨cur, _, h⟩ := bind_ok h
        obtain ⟨⟨r1, c1⟩, h6, h⟩ := bind_ok h
        cases r1 with
        | some f' => cases h; exact hout _ _ _ _ _ h6
        | none =>
          obtain ⟨⟨r2, c2⟩, h7, h⟩ := bind_ok h
          cases r2 with
          | some f' => cases h; exact hin _ _ _ _ _ h7
          | none => exact ih _ _ _ h
  unfold Refine.explore at h
  obtain ⟨o1, _, h⟩ := bind_ok h
  cases o1 with
  | none =>
    obtain ⟨o2, _, h⟩ := bind_ok h
    cases o2 <;> cases h
    trivial
  | some l1 =>
    obtain ⟨o2, _, h⟩ := bind_ok h
    cases o2 with
    | none => cases h; trivial
    | some l2 =>
      dsimp only at h
      split at h
      · cases h; trivial
      · obtain ⟨p, _, h⟩ := bind_ok h
        obtain ⟨⟨r, c⟩, h1, h⟩ := bind_ok h
        cases h
        exact hmain _ _ _ _ h1

/-- An alphabet failure is reported exactly when both systems pass their own checks and the alphabets
violate the stated inclusion (the first of the four that is violated). -/
theorem C17_alphabet_failure (s t : Sys F) (ord1 ord2 : List Bool → Orders) (ordO ordI : List String)
    (fuel : Nat) (f : RefFailure F) (hf : ∃ b, f = .notDisjoint b ∨ f = .notSubset b) :
    checkRefinement s t ord1 ord2 ordO ordI fuel = .ok (some f) ↔
      s.precheck ord1 fuel = .ok none ∧ t.precheck ord2 fuel = .ok none ∧ AlphabetFailure s.ts t.ts f := by
  constructor
  · intro h
    unfold checkRefinement at h
    obtain ⟨o1, h1, h⟩ := bind_ok h
    cases o1 with
    | some x => cases h; obtain ⟨b, h | h⟩ := hf <;> cases h
    | none =>
      obtain ⟨o2, h2, h⟩ := bind_ok h
      cases o2 with
      | some x => cases h; obtain ⟨b, h | h⟩ := hf <;> cases h
      | none =>
        refine ⟨h1, h2, ?_⟩
        dsimp only at h
        split at h
        · rename_i hx; cases h; exact alphabetFailure_iff.1 hx
        · have := explore_fail h
          obtain ⟨b, rfl | rfl⟩ := hf <;> cases this
  · rintro ⟨h1, h2, h3⟩
    simp [checkRefinement, h1, h2, alphabetFailure_iff.2 h3]

/-- The states are explored only if both systems pass their own checks and the alphabets fit; and if they
do, the verdict is that of the exploration. -/
theorem C17_explored (s t : Sys F) (ord1 ord2 : List Bool → Orders) (ordO ordI : List String)
    (fuel : Nat) (r : Option (RefFailure F)) (hr : ∀ f, r = some f → f.FromExploration) :
    checkRefinement s t ord1 ord2 ordO ordI fuel = .ok r ↔
      s.precheck ord1 fuel = .ok none ∧ t.precheck ord2 fuel = .ok none ∧ AlphabetsFit s.ts t.ts ∧
      Refine.explore s.ts t.ts ordO ordI fuel = .ok r := by
  constructor
  · intro h
    unfold checkRefinement at h
    obtain ⟨o1, h1, h⟩ := bind_ok h
    cases o1 with
    | some x => cases h; exact (hr _ rfl).elim
    | none =>
      obtain ⟨o2, h2, h⟩ := bind_ok h
      cases o2 with
      | some x => cases h; exact (hr _ rfl).elim
      | none =>
        dsimp only at h
        split at h
        · rename_i f hx
          cases h
          have := alphabetFailure_iff.1 hx
          have h' := hr _ rfl
          unfold AlphabetFailure at this
          split at this <;> first | exact h'.elim | exact this.elim
        · rename_i hx; exact ⟨h1, h2, checkAlphabets_none.1 hx, h⟩
  · rintro ⟨h1, h2, h3, h4⟩
    simp [checkRefinement, h1, h2, checkAlphabets_none.2 h3, h4]

omit [ZoneLib F] in
/-- The actions the exploration ignores on one side: outputs only the left side has, and inputs only the
right side has. -/
theorem C17_extra (S T : TS F) (a : String) :
    (a ∈ Refine.extraOutputs S T ↔ a ∈ S.outputs ∧ a ∉ T.outputs) ∧
    (a ∈ Refine.extraInputs S T ↔ a ∈ T.inputs ∧ a ∉ S.inputs) :=
  ⟨mem_setDiff, mem_setDiff⟩

/-- What a check answered, for examples. -/
def RefFailure.name : RefFailure F → String
  | .precheck _ _ => "precheck"
  | .notDisjoint true => "left inputs, right outputs"
  | .notDisjoint false => "right inputs, left outputs"
  | .notSubset true => "inputs"
  | .notSubset false => "outputs"
  | .emptyChild _ => "empty"
  | .emptyInitial => "empty initial"
  | .cannotMatch a _ => "cannot match " ++ a
  | .cutsDelays a _ => "cuts delays " ++ a

/-- The orders used in the examples. -/
def exOrders : List Bool → Orders := fun _ => ⟨fun _ => ["go", "out"], fun _ => ["go"], fun _ => ["out"]⟩
def exOrdersB : List Bool → Orders := fun _ => ⟨fun _ => ["go", "out"], fun _ => ["out"], fun _ => ["go"]⟩

/-- The alphabets of `C` and `A` fit and the check gets to the end; those of `A` and `B` do not fit, and the
failure names the inputs of `A` that are outputs of `B`. -/
example : passes (checkRefinement sysC sysA exOrders exOrders ["out"] ["go"] 20) = true := by decide +kernel
example : (match checkRefinement sysA sysB exOrders exOrdersB ["out"] ["out"] 20 with
    | .ok (some f) => f.name
    | _ => "") = "left inputs, right outputs" := by decide +kernel
/-- `A` does not refine `C`: it may answer later. -/
example : (match checkRefinement sysA sysC exOrders exOrders ["out"] ["go"] 20 with
    | .ok (some f) => f.name
    | _ => "") = "cuts delays go" := by decide +kernel

end Reveaal
