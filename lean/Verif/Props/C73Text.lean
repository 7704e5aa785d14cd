import Verif.Props.C73
import Verif.Model.Print

/-!
# C73: the text of an action failure
-/

namespace Reveaal
variable {F : Type}

/-- The words for the set: whether it is a set of inputs or of outputs, its actions, and the name of the system. -/
def ActionSet.Worded (x : ActionSet) (esc : Char → List Char) (t : List Char) (s : Sys F) (input : Bool) : Prop :=
  ∃ l : List String, (∀ a, a ∈ l ↔ a ∈ x.actions) ∧
    t = (if input then "Input set {" else "Output set {").toList ++ (debugItems esc l ++
      ("} in system '".toList ++ (s.name.toList ++ "'".toList)))

theorem ActionSet.Tells.worded {x : ActionSet} {s : Sys F} {i : Bool} (h : x.Tells s i) (esc : Char → List Char)
    {ord : List String → List String} (hord : ∀ l, (ord l).Perm l) : x.Worded esc (x.text esc ord) s i := by
  refine ⟨ord x.actions, fun a => (hord _).mem_iff, ?_⟩
  unfold ActionSet.text
  rw [h.system, h.kind]
  cases i <;> simp

/-- **C73 (text).** The text of an action failure names the two sets with the systems they belong to, says of two sets that
overlap that they are not disjoint, and of a set that is not part of another that it is not a subset. -/
theorem C73_text (esc : Char → List Char) (ord : List String → List String) (hord : ∀ l, (ord l).Perm l) (x : ActionFailure)
    (s t : Sys F) (i j : Bool) (hl : x.left.Tells s i) (hr : x.right.Tells t j) :
    ∃ a b, x.left.Worded esc a s i ∧ x.right.Worded esc b t j ∧
      (x.Overlap → x.text esc ord = a ++ (" are not disjoint from ".toList ++ b)) ∧
      (x.Excess → x.text esc ord = a ++ (" are not a subset of ".toList ++ b)) := by
  refine ⟨_, _, hl.worded esc hord, hr.worded esc hord, fun h => ?_, fun h => ?_⟩
  · unfold ActionFailure.text
    rw [h.1]
    rfl
  · unfold ActionFailure.text
    rw [h.1]
    rfl

/-- Non-vacuity: the text for `A || C`. -/
example : ∃ x : ActionFailure, sysA.compositionFailure sysC = some (.ok x) ∧ x.left.Tells sysA false ∧
    x.right.Tells sysC false ∧ x.Overlap ∧ x.text (fun c => [c]) id =
      "Output set {\"out\"} in system 'A' are not disjoint from Output set {\"out\"} in system 'C'".toList := by
  obtain ⟨x, e, h1, h2, h3⟩ := (C73_composition_partial sysA sysC sysA_accepted sysC_accepted trivial trivial).2
    (.ok ⟨false, ⟨"A", ["out"], false⟩, ⟨"C", ["out"], false⟩⟩) (by rfl)
  cases e
  exact ⟨_, by rfl, h1, h2, h3, by decide⟩

end Reveaal
