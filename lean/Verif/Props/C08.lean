import Verif.Lemmas.SysGood
import Verif.Examples
import Mathlib.Data.List.Perm.Subperm

/-!
# C08 Inputs and outputs of every system are disjoint, and the alphabets are the prescribed ones
-/

namespace Reveaal
open ZoneLib
variable {F : Type} [ZoneLib F]

theorem natStr_inj {a b : Nat} (h : toString a = toString b) : a = b := by
  have h' : (toString a).toList = (toString b).toList := by rw [h]
  simp only [Nat.toString_eq_repr, Nat.repr_eq_ofList_toDigits, String.toList_ofList] at h'
  have := congrArg (Nat.ofDigitChars 10 · 0) h'
  simpa [Nat.ofDigitChars_toDigits] using this

theorem newInput_inj {a b : Nat} (h : s!"quotient_new_input{a}" = s!"quotient_new_input{b}") : a = b :=
  natStr_inj ((String.append_right_inj _).1 h)

/-- The loop of the quotient constructor finds a name that is not in use. -/
theorem freshInput_fresh (l : List String) : Sys.freshInput l l.length 0 ∉ l := by
  have key : ∀ n i, Sys.freshInput l n i ∈ l → ∀ k, k ≤ n → s!"quotient_new_input{i + k}" ∈ l := by
    intro n
    induction n with
    | zero =>
      intro i h k hk
      have : k = 0 := by omega
      subst this; exact h
    | succ n ih =>
      intro i h k hk
      unfold Sys.freshInput at h
      split at h
      · rename_i hc
        cases k with
        | zero => simpa using hc
        | succ k =>
          have := ih (i + 1) h k (by omega)
          rwa [show i + 1 + k = i + (k + 1) by omega] at this
      · rename_i hc
        exact absurd (List.contains_iff_mem.2 h) hc
  intro h
  have hall := key _ _ h
  have hsub : (List.range (l.length + 1)).map (fun k => s!"quotient_new_input{0 + k}") ⊆ l := by
    intro x hx
    obtain ⟨k, hk, rfl⟩ := List.mem_map.1 hx
    exact hall k (by simpa [Nat.lt_succ_iff] using hk)
  have hnd : ((List.range (l.length + 1)).map (fun k => s!"quotient_new_input{0 + k}")).Nodup := by
    refine List.Nodup.map (fun a b hab => ?_) List.nodup_range
    have := newInput_inj hab
    omega
  have := (hnd.subperm hsub).length_le
  simp at this

omit [ZoneLib F] in
/-- Composition is refused exactly when the outputs overlap; otherwise its outputs are the outputs of
both sides and its inputs are the inputs of either side that the other side does not output. -/
theorem C08_composition_alphabet (l r : Sys F) :
    ((∃ a ∈ l.outputs, a ∈ r.outputs) → ∃ m, Sys.newComposition l r = .error (.err m)) ∧
    ((¬ ∃ a ∈ l.outputs, a ∈ r.outputs) → ∃ s, Sys.newComposition l r = .ok s ∧
      (∀ a, a ∈ s.outputs ↔ a ∈ l.outputs ∨ a ∈ r.outputs) ∧
      ∀ a, a ∈ s.inputs ↔ (a ∈ l.inputs ∧ a ∉ r.outputs) ∨ (a ∈ r.inputs ∧ a ∉ l.outputs)) := by
  constructor
  · rintro ⟨a, h1, h2⟩
    unfold Sys.newComposition
    have : setDisjoint l.outputs r.outputs = false := by
      rw [← Bool.not_eq_true, setDisjoint_iff]; exact fun h => h a h1 h2
    simp [this]
  · intro h
    have hd : setDisjoint l.outputs r.outputs = true := by
      rw [setDisjoint_iff]; exact fun a h1 h2 => h ⟨a, h1, h2⟩
    unfold Sys.newComposition
    simp only [hd, Bool.not_true, Bool.false_eq_true, if_false]
    refine ⟨_, rfl, fun a => ?_, fun a => ?_⟩
    · rw [Sys.outputs_composition, mem_setUnion]
    · rw [Sys.inputs_composition, mem_mkSet]; simp

omit [ZoneLib F] in
/-- Conjunction is refused exactly when an action is an input of one side and an output of the other;
otherwise (before the consistency check) its alphabets are the intersections. -/
theorem C08_conjunction_alphabet (l r : Sys F) :
    ((∃ a, (a ∈ l.inputs ∧ a ∈ r.outputs) ∨ (a ∈ l.outputs ∧ a ∈ r.inputs)) →
      ∃ m, Sys.newConjunctionUnchecked l r = .error (.err m)) ∧
    ((¬ ∃ a, (a ∈ l.inputs ∧ a ∈ r.outputs) ∨ (a ∈ l.outputs ∧ a ∈ r.inputs)) →
      ∃ s, Sys.newConjunctionUnchecked l r = .ok s ∧
      (∀ a, a ∈ s.outputs ↔ a ∈ l.outputs ∧ a ∈ r.outputs) ∧
      ∀ a, a ∈ s.inputs ↔ a ∈ l.inputs ∧ a ∈ r.inputs) := by
  have e1 : setDisjoint l.inputs r.outputs = true ↔ ¬ ∃ a, a ∈ l.inputs ∧ a ∈ r.outputs := by
    rw [setDisjoint_iff]; push Not; rfl
  have e2 : setDisjoint l.outputs r.inputs = true ↔ ¬ ∃ a, a ∈ l.outputs ∧ a ∈ r.inputs := by
    rw [setDisjoint_iff]; push Not; rfl
  constructor
  · rintro ⟨a, h | h⟩
    · have : setDisjoint l.inputs r.outputs = false := by
        rw [← Bool.not_eq_true, e1]; exact fun h' => h' ⟨a, h⟩
      simp [Sys.newConjunctionUnchecked, this]
    · have : setDisjoint l.outputs r.inputs = false := by
        rw [← Bool.not_eq_true, e2]; exact fun h' => h' ⟨a, h⟩
      unfold Sys.newConjunctionUnchecked
      cases setDisjoint l.inputs r.outputs <;> simp [this]
  · intro h
    have h1 := e1.2 fun ⟨a, ha⟩ => h ⟨a, .inl ha⟩
    have h2 := e2.2 fun ⟨a, ha⟩ => h ⟨a, .inr ha⟩
    unfold Sys.newConjunctionUnchecked
    simp only [h1, h2, Bool.not_true, Bool.false_eq_true, if_false]
    refine ⟨_, rfl, fun a => ?_, fun a => ?_⟩
    · rw [Sys.outputs_conjunction, mem_setInter]
    · rw [Sys.inputs_conjunction, mem_setInter]

omit [ZoneLib F] in
/-- A quotient `T \\ S` is refused exactly when an output of `S` is an input of `T`; otherwise (before
the prechecks) its inputs are the inputs of `T`, the outputs of `S` and one new name that is neither,
and its outputs are the outputs of `T` that `S` does not output and the inputs of `S` that `T` does not
have as inputs. -/
theorem C08_quotient_alphabet (T S : Sys F) (clock : Nat) :
    ((∃ a ∈ S.outputs, a ∈ T.inputs) → ∃ m, Sys.newQuotientUnchecked T S clock = .error (.err m)) ∧
    ((¬ ∃ a ∈ S.outputs, a ∈ T.inputs) → ∃ s new, Sys.newQuotientUnchecked T S clock = .ok s ∧
      new ∉ T.inputs ∧ new ∉ S.outputs ∧
      (∀ a, a ∈ s.inputs ↔ a ∈ T.inputs ∨ a ∈ S.outputs ∨ a = new) ∧
      ∀ a, a ∈ s.outputs ↔ (a ∈ T.outputs ∧ a ∉ S.outputs) ∨ (a ∈ S.inputs ∧ a ∉ T.inputs)) := by
  constructor
  · rintro ⟨a, h1, h2⟩
    unfold Sys.newQuotientUnchecked
    have : setDisjoint S.outputs T.inputs = false := by
      rw [← Bool.not_eq_true, setDisjoint_iff]; exact fun h => h a h1 h2
    simp [this]
  · intro h
    have hd : setDisjoint S.outputs T.inputs = true := by
      rw [setDisjoint_iff]; exact fun a h1 h2 => h ⟨a, h1, h2⟩
    unfold Sys.newQuotientUnchecked
    simp only [hd, Bool.not_true, Bool.false_eq_true, if_false]
    have hf := freshInput_fresh (setUnion T.inputs S.outputs)
    rw [mem_setUnion] at hf
    push Not at hf
    refine ⟨_, _, rfl, hf.1, hf.2, fun a => ?_, fun a => ?_⟩
    · rw [Sys.inputs_quotient, mem_setUnion, mem_setUnion]; simp [or_assoc]
    · rw [Sys.outputs_quotient, mem_setUnion, mem_setDiff, mem_setDiff]

/-- In every quotient inside the system, the generated input name is not an output of the left side or
an input of the right side. -/
def Sys.NewInputsUnused : Sys F → Prop
  | .comp _ => True
  | .composition l r _ _ _ _ _ => l.NewInputsUnused ∧ r.NewInputsUnused
  | .conjunction l r _ _ => l.NewInputsUnused ∧ r.NewInputsUnused
  | .quotient t s _ _ _ new => t.NewInputsUnused ∧ s.NewInputsUnused ∧ new ∉ t.outputs ∧ new ∉ s.inputs

/-- No action of an accepted system is both an input and an output.
Missing from the full property: quotients whose generated input name is already used in a direction the
constructor does not look at; for those the claim is false (`C08_violated_nested_quotient`). -/
theorem C08_disjoint_partial {s : Sys F} (h : s.Accepted) (hq : s.NewInputsUnused) :
    ∀ a ∈ s.inputs, a ∉ s.outputs := by
  induction h with
  | comp hc ho h => exact (compileWith_wf hc ho h).disj
  | @composition l r s _ _ h ihl ihr =>
    obtain ⟨hd, rfl⟩ := Sys.newComposition_eq h
    have ihl := ihl hq.1
    have ihr := ihr hq.2
    intro a
    rw [Sys.inputs_composition, Sys.outputs_composition, mem_mkSet, mem_setUnion]
    simp only [List.mem_append, List.mem_filter, Bool.not_eq_true', List.contains_eq_mem,
      decide_eq_false_iff_not]
    have := ihl a; have := ihr a; tauto
  | @conjunction l r s _ _ h ihl ihr =>
    obtain ⟨_, _, rfl⟩ := Sys.newConjunction_eq h
    intro a
    rw [Sys.inputs_conjunction, Sys.outputs_conjunction, mem_setInter, mem_setInter]
    have := ihl hq.1 a; tauto
  | @quotient t s x c _ _ h0 hn h iht ihs =>
    obtain ⟨hd, rfl⟩ := Sys.newQuotient_eq h
    obtain ⟨q1, q2, q3, q4⟩ := hq
    intro a
    rw [Sys.inputs_quotient, Sys.outputs_quotient]
    simp only [mem_setUnion, mem_setDiff, List.mem_singleton]
    have i1 := iht q1 a
    have i2 := ihs q2 a
    have i3 := hd a
    rintro ((ha | ha) | rfl)
    · tauto
    · tauto
    · rintro (⟨h1, _⟩ | ⟨h1, _⟩)
      · exact q3 h1
      · exact q4 h1

/-- The property fails for nested quotients: with three components that have a single location and no
actions at all, the system expression `A \\ (B \\ C)` is accepted and has `quotient_new_input0` both as an
input and as an output. -/
theorem C08_violated_nested_quotient (hdim : 2 < dim F) :
    ∃ A B C BC s : Sys F, A.Accepted ∧ B.Accepted ∧ C.Accepted ∧
      Sys.newQuotientUnchecked B C 1 = .ok BC ∧ Sys.newQuotientUnchecked A BC 2 = .ok s ∧
      s.Accepted ∧ "quotient_new_input0" ∈ s.inputs ∧ "quotient_new_input0" ∈ s.outputs := by
  let c : Component := ⟨"A", ⟨[], []⟩, [⟨"L0", none, .initial, "NORMAL"⟩], []⟩
  have hc : c.Ok (dim F) := by
    constructor
    · intro p hp; cases hp
    · intro e he; cases he
    · intro l hl g hg
      simp only [c, List.mem_singleton] at hl; subst hl; cases hg
    · intro e he; cases he
  have hcomp : CompComp.compile (F := F) id c 0 = .ok ⟨"A", 0, ⟨[], []⟩, Bounds.new, [], [],
      [(.simple "L0", .leaf (.simple "L0") none .initial)], [(.simple "L0", [])],
      some (.leaf (.simple "L0") none .initial)⟩ := rfl
  have hA := Sys.Accepted.comp (order := id) (id := 0) hc (fun _ => .refl _) hcomp
  generalize hAe : Sys.comp (F := F) _ = A at hA
  have hin : A.inputs = [] := by subst hAe; rfl
  have hout : A.outputs = [] := by subst hAe; rfl
  have h1 : Sys.newQuotientUnchecked A A 1 = .ok (.quotient A A ["quotient_new_input0"] [] 1
      "quotient_new_input0") := by
    unfold Sys.newQuotientUnchecked; rw [hin, hout]; rfl
  have h2 : Sys.newQuotientUnchecked A (.quotient A A ["quotient_new_input0"] [] 1
      "quotient_new_input0") 2 = .ok (.quotient A (.quotient A A ["quotient_new_input0"] [] 1
      "quotient_new_input0") ["quotient_new_input0"] ["quotient_new_input0"] 2 "quotient_new_input0") := by
    unfold Sys.newQuotientUnchecked; rw [hin, hout]; rfl
  exact ⟨A, A, A, _, _, hA, hA, hA, h1, h2,
    .quotient hA (.quotient hA hA (by decide) (by omega) h1) (by decide) hdim h2,
    by simp [Sys.inputs], by simp [Sys.outputs]⟩

/-- The hypotheses are met: the composition of `A` and `B`, and the quotient of it by `A`, which both
have a non-trivial alphabet. -/
example : sysAB.Accepted ∧ sysAB.NewInputsUnused ∧ sysQ.Accepted ∧ sysQ.NewInputsUnused ∧
    "go" ∈ sysAB.outputs ∧ sysQ.inputs = ["out", "quotient_new_input0"] ∧ sysQ.outputs = ["go"] :=
  ⟨sysAB_accepted, ⟨trivial, trivial⟩, sysQ_accepted,
    ⟨⟨trivial, trivial⟩, trivial, by decide +kernel, by decide +kernel⟩, by decide +kernel,
    by decide +kernel, by decide +kernel⟩

end Reveaal
