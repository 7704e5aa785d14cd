import Verif.Spec.ActionReport
import Verif.Props.C08
import Verif.Model.Refine
import Verif.Examples

/-!
# C73 The action mismatches that are reported are real
-/

namespace Reveaal
open ZoneLib
variable {F : Type}

theorem setEq_refl (a : List String) : setEq a a = true := by
  simp [setEq]

theorem setEq_apart {a b : List String} (h : ∀ x ∈ a, x ∉ b) (hb : b ≠ []) : setEq a b = false := by
  obtain ⟨x, hx⟩ := List.exists_mem_of_ne_nil b hb
  cases e : setEq a b with
  | false => rfl
  | true =>
    simp only [setEq, Bool.and_eq_true, List.all_eq_true, List.contains_iff_mem] at e
    exact absurd hx (h x (e.2 x hx))

/-- The actions of `s` of the kind -/
def Sys.acts (s : Sys F) (input : Bool) : List String := if input then s.inputs else s.outputs

theorem setEq_acts {s : Sys F} (h : ∀ a ∈ s.inputs, a ∉ s.outputs) {i : Bool}
    (hne : i = false → s.inputs ≠ [] ∨ s.outputs ≠ []) : setEq s.inputs (s.acts i) = i := by
  cases i with
  | true => exact setEq_refl _
  | false =>
    by_cases ho : s.outputs = []
    · have hi : s.inputs ≠ [] := by
        rcases hne rfl with h | h
        · exact h
        · exact absurd ho h
      obtain ⟨x, hx⟩ := List.exists_mem_of_ne_nil _ hi
      cases e : setEq s.inputs (s.acts false) with
      | false => rfl
      | true =>
        simp only [setEq, Bool.and_eq_true, List.all_eq_true, List.contains_iff_mem] at e
        have := e.1 x hx
        rw [show s.acts false = s.outputs from rfl, ho] at this
        cases this
    · exact setEq_apart h ho

theorem between_ok {s t : Sys F} (hs : ∀ a ∈ s.inputs, a ∉ s.outputs) (ht : ∀ a ∈ t.inputs, a ∉ t.outputs) (b i j : Bool)
    (hi : i = false → s.inputs ≠ [] ∨ s.outputs ≠ []) (hj : j = false → t.inputs ≠ [] ∨ t.outputs ≠ []) :
    ∃ x, ActionFailure.between b s (s.acts i) t (t.acts j) = .ok x ∧ x.subset = b ∧ x.left.actions = s.acts i ∧
      x.right.actions = t.acts j ∧ x.left.Tells s i ∧ x.right.Tells t j := by
  have h1 := setEq_acts hs hi
  have h2 := setEq_acts ht hj
  have h3 : (i || setEq s.outputs (s.acts i)) = true := by
    cases i with
    | true => rfl
    | false => exact setEq_refl _
  have h4 : (j || setEq t.outputs (t.acts j)) = true := by
    cases j with
    | true => rfl
    | false => exact setEq_refl _
  refine ⟨⟨b, ⟨s.name, s.acts i, i⟩, ⟨t.name, t.acts j, j⟩⟩, ?_, rfl, rfl, rfl, ⟨rfl, rfl, fun _ => Iff.rfl⟩, rfl, rfl, fun _ => Iff.rfl⟩
  unfold ActionFailure.between
  simp only [h1, h2, h3, h4, Bool.not_true, Bool.false_eq_true, if_false]

theorem between_overlap {s t : Sys F} (hs : ∀ a ∈ s.inputs, a ∉ s.outputs) (ht : ∀ a ∈ t.inputs, a ∉ t.outputs) {i j : Bool}
    (h : setDisjoint (s.acts i) (t.acts j) ≠ true) :
    ∃ x, ActionFailure.between false s (s.acts i) t (t.acts j) = .ok x ∧ x.left.Tells s i ∧ x.right.Tells t j ∧ x.Overlap := by
  rw [Ne, setDisjoint_iff] at h
  push Not at h
  obtain ⟨a, ha, hb⟩ := h
  obtain ⟨x, h1, h2, h3, h4, h5, h6⟩ := between_ok hs ht false i j
    (fun e => .inr (by rintro e'; rw [e, show s.acts false = s.outputs from rfl, e'] at ha; cases ha))
    (fun e => .inr (by rintro e'; rw [e, show t.acts false = t.outputs from rfl, e'] at hb; cases hb))
  exact ⟨x, h1, h5, h6, h2, a, h3 ▸ ha, h4 ▸ hb⟩

theorem between_excess {s t : Sys F} (hs : ∀ a ∈ s.inputs, a ∉ s.outputs) (ht : ∀ a ∈ t.inputs, a ∉ t.outputs) {i j : Bool}
    (h : ((s.acts i).all fun a => (t.acts j).contains a) ≠ true) (hj : j = false → t.inputs ≠ [] ∨ t.outputs ≠ []) :
    ∃ x, ActionFailure.between true s (s.acts i) t (t.acts j) = .ok x ∧ x.left.Tells s i ∧ x.right.Tells t j ∧ x.Excess := by
  have h : ∃ a ∈ s.acts i, a ∉ t.acts j := by
    simp only [ne_eq, List.all_eq_true, List.contains_iff_mem] at h
    push Not at h
    exact h
  obtain ⟨a, ha, hb⟩ := h
  obtain ⟨x, h1, h2, h3, h4, h5, h6⟩ := between_ok hs ht true i j
    (fun e => .inr (by rintro e'; rw [e, show s.acts false = s.outputs from rfl, e'] at ha; cases ha)) hj
  exact ⟨x, h1, h5, h6, h2, a, h3 ▸ ha, h4 ▸ hb⟩

/-! ## Components are refused only because of their actions -/

/-- Not an error; it may be a panic -/
def NoErr {α : Type} (x : Res α) : Prop := ∀ m, x ≠ .error (.err m)

theorem NoErr.ok {α : Type} (a : α) : NoErr (.ok a) := nofun

theorem NoErr.bind {α β : Type} {x : Res α} {f : α → Res β} (h : NoErr x) (hf : ∀ a, x = .ok a → NoErr (f a)) :
    NoErr (x >>= f) := by
  cases x with
  | ok a => exact hf a rfl
  | error e => intro m hm; cases hm; exact h m rfl

theorem NoErr.mapM {α β : Type} {f : α → Res β} (hf : ∀ a, NoErr (f a)) (l : List α) : NoErr (l.mapM f) := by
  induction l with
  | nil => exact .ok _
  | cons a l ih =>
    rw [List.mapM_cons]
    exact (hf a).bind fun b _ => ih.bind fun c _ => .ok _

theorem noErr_orPanic {α : Type} (x : Res α) : NoErr (orPanic x) := by
  intro m hm
  unfold orPanic at hm
  split at hm <;> cases hm

section
variable [ZoneLib F]

theorem noErr_simple (d : Decls) (l : Location) : NoErr (LocTree.simple (F := F) d l) := by
  refine NoErr.bind ?_ fun _ _ => .ok _
  unfold Location.compileInv
  split
  · exact (noErr_orPanic _).bind fun _ _ => .ok _
  · exact .ok _

theorem noErr_update (d : Decls) (u : Update) : NoErr (CUpdate.compile d u) := by
  intro m hm
  unfold CUpdate.compile at hm
  split at hm
  · split at hm <;> cases hm
  · cases hm

theorem noErr_fromEdge (c : Component) (e : Edge) : NoErr (Transition.fromEdge (F := F) c e) := by
  unfold Transition.fromEdge
  refine NoErr.bind ?_ fun _ _ => (noErr_simple _ _).bind fun _ _ => NoErr.bind ?_ fun _ _ => NoErr.bind ?_ fun _ _ => .ok _
  · intro m hm
    unfold Component.locationByName at hm
    split at hm <;> cases hm
  · unfold Edge.compileUpdates
    split
    · exact .mapM (noErr_update _) _
    · exact .ok _
  · unfold Edge.applyGuard
    split
    · exact noErr_orPanic _
    · exact .ok _

omit [ZoneLib F] in
theorem noErr_pushEdge (id : LocId) (x : String × Transition F) (m : List (LocId × List (String × Transition F))) :
    NoErr (CompComp.pushEdge id x m) := by
  induction m with
  | nil => intro m hm; cases hm
  | cons p m ih =>
    unfold CompComp.pushEdge
    split
    · exact .ok _
    · exact ih.bind fun _ _ => .ok _

theorem noErr_buildEdges (c : Component) (es : List Edge) (m : List (LocId × List (String × Transition F))) :
    NoErr (CompComp.buildEdges c es m) := by
  induction es generalizing m with
  | nil => exact .ok _
  | cons e es ih => exact (noErr_fromEdge _ _).bind fun _ _ => (noErr_pushEdge _ _ _).bind fun _ _ => ih _

/-- **C73 (components).** A component is refused because of its actions exactly if such a failure is reported for it; the
failure then gives its inputs and its outputs, and some action is both. -/
theorem C73_component (c : Component) (order : List (LocId × LocTree F) → List (LocId × LocTree F)) (id : Nat) :
    ((∃ m, CompComp.compile order c id = .error (.err m)) ↔ c.actionFailure.isSome) ∧
    ∀ x, c.actionFailure = some x → x.Overlap ∧
      x.left.system = c.name ∧ x.left.isInput = true ∧
      (∀ a, a ∈ x.left.actions ↔ ∃ e ∈ c.edges, e.sync = .input ∧ e.action = a ∧ a ≠ "*") ∧
      x.right.system = c.name ∧ x.right.isInput = false ∧
      (∀ a, a ∈ x.right.actions ↔ ∃ e ∈ c.edges, e.sync = .output ∧ e.action = a ∧ a ≠ "*") := by
  have key : ∀ k a, a ∈ c.specificActions k ↔ ∃ e ∈ c.edges, e.sync = k ∧ e.action = a ∧ a ≠ "*" := by
    intro k a
    unfold Component.specificActions
    rw [mem_mkSet]
    simp only [List.mem_map, List.mem_filter, Bool.and_eq_true, decide_eq_true_eq]
    constructor
    · rintro ⟨e, ⟨he, h1, h2⟩, rfl⟩; exact ⟨e, he, h1, rfl, h2⟩
    · rintro ⟨e, he, h1, rfl, h2⟩; exact ⟨e, ⟨he, h1, h2⟩, rfl⟩
  unfold CompComp.compile CompComp.compileWith Component.actionFailure
  by_cases h : setDisjoint (c.specificActions .input) (c.specificActions .output) = true
  · simp only [h, Bool.not_true, Bool.false_eq_true, if_false]
    refine ⟨⟨fun ⟨m, hm⟩ => ?_, fun h => nomatch h⟩, fun x hx => nomatch hx⟩
    refine absurd hm (NoErr.bind ?_ (fun locs _ => NoErr.bind (noErr_buildEdges _ _ _) fun _ _ => .ok _) m)
    exact NoErr.bind (.mapM (noErr_simple _) _) fun _ _ => .ok _
  · simp only [Bool.not_eq_true] at h
    simp only [h, Bool.not_false, if_true, Option.isSome_some, Option.some.injEq]
    refine ⟨⟨fun _ => trivial, fun _ => ⟨_, rfl⟩⟩, ?_⟩
    rintro x rfl
    have h' : ¬ setDisjoint (c.specificActions .input) (c.specificActions .output) = true := by rw [h]; decide
    rw [setDisjoint_iff] at h'
    push Not at h'
    obtain ⟨a, ha, hb⟩ := h'
    exact ⟨⟨rfl, a, ha, hb⟩, rfl, rfl, key _, rfl, rfl, key _⟩

/-- **C73 (composition).** A composition is refused exactly if an action failure is reported for it.  The report never
panics; it gives the outputs of the two systems, and some action is an output of both.  Missing from the full property:
systems of which an action is both an input and an output, which a quotient can be (see C08). -/
theorem C73_composition_partial (s t : Sys F) (hs : s.Accepted) (ht : t.Accepted) (hs' : s.NewInputsUnused)
    (ht' : t.NewInputsUnused) :
    ((∃ x, Sys.newComposition s t = .ok x) ↔ s.compositionFailure t = none) ∧
    ∀ y, s.compositionFailure t = some y → ∃ x, y = .ok x ∧ x.left.Tells s false ∧ x.right.Tells t false ∧ x.Overlap := by
  unfold Sys.newComposition Sys.compositionFailure
  by_cases h : setDisjoint s.outputs t.outputs = true
  · simp [h]
  · rw [Bool.not_eq_true] at h
    simp only [h, Bool.not_false, if_true]
    refine ⟨by simp, ?_⟩
    rintro y ⟨⟩
    exact between_overlap (C08_disjoint_partial hs hs') (C08_disjoint_partial ht ht') (i := false) (j := false)
      (by rw [show s.acts false = s.outputs from rfl, show t.acts false = t.outputs from rfl, h]; decide)

/-- **C73 (conjunction).** The same for conjunctions: an input of one of the systems is an output of the other. -/
theorem C73_conjunction_partial (s t : Sys F) (hs : s.Accepted) (ht : t.Accepted) (hs' : s.NewInputsUnused)
    (ht' : t.NewInputsUnused) :
    ((∃ x, Sys.newConjunctionUnchecked s t = .ok x) ↔ s.conjunctionFailure t = none) ∧
    ∀ y, s.conjunctionFailure t = some y → ∃ x i, y = .ok x ∧ x.left.Tells s i ∧ x.right.Tells t (!i) ∧ x.Overlap := by
  have ds := C08_disjoint_partial hs hs'
  have dt := C08_disjoint_partial ht ht'
  unfold Sys.newConjunctionUnchecked Sys.conjunctionFailure
  by_cases h : setDisjoint s.inputs t.outputs = true
  · simp only [h, Bool.not_true, Bool.false_eq_true, if_false]
    by_cases h : setDisjoint s.outputs t.inputs = true
    · simp [h]
    · rw [Bool.not_eq_true] at h
      simp only [h, Bool.not_false, if_true]
      refine ⟨by simp, ?_⟩
      rintro y ⟨⟩
      obtain ⟨x, h⟩ := between_overlap ds dt (i := false) (j := true)
        (by rw [show s.acts false = s.outputs from rfl, show t.acts true = t.inputs from rfl, h]; decide)
      exact ⟨x, false, h⟩
  · rw [Bool.not_eq_true] at h
    simp only [h, Bool.not_false, if_true]
    refine ⟨by simp, ?_⟩
    rintro y ⟨⟩
    obtain ⟨x, h⟩ := between_overlap ds dt (i := true) (j := false)
      (by rw [show s.acts true = s.inputs from rfl, show t.acts false = t.outputs from rfl, h]; decide)
    exact ⟨x, true, h⟩

/-- **C73 (quotient).** The same for quotients: an output of the divisor is an input of the dividend. -/
theorem C73_quotient_partial (T S : Sys F) (hT : T.Accepted) (hS : S.Accepted) (hT' : T.NewInputsUnused)
    (hS' : S.NewInputsUnused) (clock : Nat) :
    ((∃ x, Sys.newQuotientUnchecked T S clock = .ok x) ↔ T.quotientFailure S = none) ∧
    ∀ y, T.quotientFailure S = some y → ∃ x, y = .ok x ∧ x.left.Tells S false ∧ x.right.Tells T true ∧ x.Overlap := by
  unfold Sys.newQuotientUnchecked Sys.quotientFailure
  by_cases h : setDisjoint S.outputs T.inputs = true
  · simp [h]
  · rw [Bool.not_eq_true] at h
    simp only [h, Bool.not_false, if_true]
    refine ⟨by simp, ?_⟩
    rintro y ⟨⟩
    exact between_overlap (C08_disjoint_partial hS hS') (C08_disjoint_partial hT hT') (i := false) (j := true)
      (by rw [show S.acts false = S.outputs from rfl, show T.acts true = T.inputs from rfl, h]; decide)

/-- **C73 (refinement).** The actions of the two sides of a refinement are found not to fit exactly if an action failure is
reported.  The report never panics, and it is one of: an input of one side is an output of the other; an input of the left
side is missing on the right; an output of the right side is missing on the left.  Missing from the full property: left sides
without any actions (see `C73_violated_empty`), and systems of which an action is both an input and an output. -/
theorem C73_refinement_partial (s t : Sys F) (hs : s.Accepted) (ht : t.Accepted) (hs' : s.NewInputsUnused)
    (ht' : t.NewInputsUnused) (hne : s.inputs ≠ [] ∨ s.outputs ≠ []) :
    (Refine.checkAlphabets s.ts t.ts = none ↔ s.refinementFailure t = none) ∧
    ∀ y, s.refinementFailure t = some y → ∃ x, y = .ok x ∧
      (x.left.Tells s true ∧ x.right.Tells t false ∧ x.Overlap ∨
       x.left.Tells t true ∧ x.right.Tells s false ∧ x.Overlap ∨
       x.left.Tells s true ∧ x.right.Tells t true ∧ x.Excess ∨
       x.left.Tells t false ∧ x.right.Tells s false ∧ x.Excess) := by
  have ds := C08_disjoint_partial hs hs'
  have dt := C08_disjoint_partial ht ht'
  unfold Refine.checkAlphabets Sys.refinementFailure
  simp only [show s.ts.inputs = s.acts true from rfl, show s.ts.outputs = s.acts false from rfl,
    show t.ts.inputs = t.acts true from rfl, show t.ts.outputs = t.acts false from rfl,
    show s.inputs = s.acts true from rfl, show s.outputs = s.acts false from rfl,
    show t.inputs = t.acts true from rfl, show t.outputs = t.acts false from rfl]
  by_cases h : setDisjoint (s.acts true) (t.acts false) = true
  · simp only [h, Bool.not_true, Bool.false_eq_true, if_false]
    by_cases h : setDisjoint (t.acts true) (s.acts false) = true
    · simp only [h, Bool.not_true, Bool.false_eq_true, if_false]
      by_cases h : ((s.acts true).all fun a => (t.acts true).contains a) = true
      · simp only [h, Bool.not_true, Bool.false_eq_true, if_false]
        by_cases h : ((t.acts false).all fun a => (s.acts false).contains a) = true
        · simp only [h, Bool.not_true, Bool.false_eq_true, if_false, true_and]
          exact fun y hy => nomatch hy
        · have hx := between_excess dt ds h (fun _ => hne)
          rw [Bool.not_eq_true] at h
          simp only [h, Bool.not_false, if_true]
          refine ⟨by simp, ?_⟩
          rintro y ⟨⟩
          obtain ⟨x, h1, h2⟩ := hx
          exact ⟨x, h1, .inr (.inr (.inr h2))⟩
      · have hx := between_excess ds dt h (fun e => nomatch e)
        rw [Bool.not_eq_true] at h
        simp only [h, Bool.not_false, if_true]
        refine ⟨by simp, ?_⟩
        rintro y ⟨⟩
        obtain ⟨x, h1, h2⟩ := hx
        exact ⟨x, h1, .inr (.inr (.inl h2))⟩
    · have hx := between_overlap dt ds h
      rw [Bool.not_eq_true] at h
      simp only [h, Bool.not_false, if_true]
      refine ⟨by simp, ?_⟩
      rintro y ⟨⟩
      obtain ⟨x, h1, h2⟩ := hx
      exact ⟨x, h1, .inr (.inl h2)⟩
  · have hx := between_overlap ds dt h
    rw [Bool.not_eq_true] at h
    simp only [h, Bool.not_false, if_true]
    refine ⟨by simp, ?_⟩
    rintro y ⟨⟩
    obtain ⟨x, h1, h2⟩ := hx
    exact ⟨x, h1, .inl h2⟩

end

/-- **C73 (message).** The message that is sent says which kind of failure it is, by the number of the protocol (0 for a set
that is not part of the other, 1 for sets that overlap), and has the two sets in this order, with the same names, kinds and
actions. -/
theorem C73_message (ord : List String → List String) (hord : ∀ l, (ord l).Perm l) (x : ActionFailure) :
    ∃ l r, (x.toProto ord).sets = [l, r] ∧ (x.toProto ord).failure = (if x.subset then 0 else 1) ∧
      (l.system = x.left.system ∧ l.isInput = x.left.isInput ∧ ∀ a, a ∈ l.actions ↔ a ∈ x.left.actions) ∧
      (r.system = x.right.system ∧ r.isInput = x.right.isInput ∧ ∀ a, a ∈ r.actions ↔ a ∈ x.right.actions) :=
  ⟨_, _, rfl, rfl, ⟨rfl, rfl, fun _ => (hord _).mem_iff⟩, rfl, rfl, fun _ => (hord _).mem_iff⟩

/-! ## The violation -/

def exActionless : Component := ⟨"I", ⟨[], []⟩, [⟨"L0", none, .initial, "NORMAL"⟩], []⟩

def sysActionless : Sys Fed4 := .comp (getOk (CompComp.compile id exActionless 0) (by decide +kernel))

theorem sysActionless_accepted : sysActionless.Accepted := .comp (Component.ok_of_okB (by decide)) (fun _ => .refl _) (getOk_eq _)

/-- **C73 is violated** for a refinement whose left side has no actions: the report says that the outputs of the right side
are not a subset of the *inputs* of the left side. -/
theorem C73_violated_empty : ∃ s t : Sys Fed4, s.Accepted ∧ t.Accepted ∧ s.NewInputsUnused ∧ t.NewInputsUnused ∧
    ∃ x, s.refinementFailure t = some (.ok x) ∧ x.subset = true ∧ x.left.Tells t false ∧ x.right.system = s.name ∧
      x.right.isInput = true :=
  ⟨sysActionless, sysA, sysActionless_accepted, sysA_accepted, trivial, trivial, ⟨true, ⟨"A", ["out"], false⟩, ⟨"I", [], true⟩⟩,
    by rfl, rfl, ⟨by rfl, rfl, fun a => by
      have : sysA.outputs = ["out"] := by decide +kernel
      simp [this]⟩, by rfl, rfl⟩

/-! ## Examples -/

/-- The hypotheses are met and the failures reported: `A || C` is refused because `out` is an output of both. -/
example : sysA.Accepted ∧ sysC.Accepted ∧ sysA.NewInputsUnused ∧ sysC.NewInputsUnused ∧
    sysA.compositionFailure sysC = some (.ok ⟨false, ⟨"A", ["out"], false⟩, ⟨"C", ["out"], false⟩⟩) :=
  ⟨sysA_accepted, sysC_accepted, trivial, trivial, by rfl⟩

/-- `A && B` and `A \\\\ B` are refused because `go` is an input of `A` and an output of `B`; so is the refinement. -/
example : sysA.Accepted ∧ sysB.Accepted ∧ sysA.NewInputsUnused ∧ sysB.NewInputsUnused ∧
    sysA.conjunctionFailure sysB = some (.ok ⟨false, ⟨"A", ["go"], true⟩, ⟨"B", ["go"], false⟩⟩) ∧
    sysA.quotientFailure sysB = some (.ok ⟨false, ⟨"B", ["go"], false⟩, ⟨"A", ["go"], true⟩⟩) ∧
    sysA.inputs ≠ [] ∧
    sysA.refinementFailure sysB = some (.ok ⟨false, ⟨"A", ["go"], true⟩, ⟨"B", ["go"], false⟩⟩) :=
  ⟨sysA_accepted, sysB_accepted, trivial, trivial, by rfl, by rfl, by decide +kernel, by rfl⟩

/-- `A` has an input that the system without actions has not. -/
example : sysA.refinementFailure sysActionless = some (.ok ⟨true, ⟨"A", ["go"], true⟩, ⟨"I", [], true⟩⟩) := by rfl

/-- A component with an action that is both an input and an output -/
example : ({ exA with edges := exA.edges ++ [⟨"e2", "L0", "L0", .input, none, none, "out"⟩] } : Component).actionFailure =
    some ⟨false, ⟨"A", ["go", "out"], true⟩, ⟨"A", ["out"], false⟩⟩ := by rfl

end Reveaal
