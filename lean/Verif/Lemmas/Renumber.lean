import Verif.Spec.SameMeaning

/-! # Guards do not depend on the numbers of clocks -/

namespace Reveaal

/-- The expression mentions clocks by name, not by index (as after reading). -/
def Arith.NamesOnly : Arith → Prop
  | .clock _ => False
  | .add l r | .dif l r | .mul l r | .div l r | .mod l r => l.NamesOnly ∧ r.NamesOnly
  | .var _ | .int _ => True

/-- The guard mentions clocks by name. -/
def BoolE.NamesOnly : BoolE → Prop
  | .and l r | .or l r => l.NamesOnly ∧ r.NamesOnly
  | .le l r | .ge l r | .lt l r | .gt l r | .eq l r => l.NamesOnly ∧ r.NamesOnly
  | .bool _ => True

/-- The two declarations declare the same clock names. -/
def SameNames (d d' : Decls) : Prop := ∀ n, (∃ i, d'.clocks.lookup n = some i) ↔ ∃ i, d.clocks.lookup n = some i

theorem SameNames.isSome {d d' : Decls} (h : SameNames d d') (n : String) :
    (d'.clocks.lookup n).isSome = (d.clocks.lookup n).isSome := by
  have := h n
  cases h1 : d'.clocks.lookup n <;> cases h2 : d.clocks.lookup n <;> simp_all

theorem constVal_renumber {d d' : Decls} (hc : SameNames d d') (hi : d'.ints = d.ints) (e : Arith) :
    constVal d' e = constVal d e := by
  induction e with
  | var n => simp only [constVal, hi, hc.isSome]
  | int => rfl
  | clock => rfl
  | _ => simp_all [constVal]

theorem value_renumber {d d' : Decls} (hc : SameNames d d') (hi : d'.ints = d.ints) {v v' : Val}
    (ha : AgreeOn d d' v v') {e : Arith} (he : e.NamesOnly) : value d' v' e = value d v e := by
  induction e with
  | var n =>
    unfold value
    cases h : d.clocks.lookup n with
    | none =>
      have := hc.isSome n
      rw [h] at this
      cases h' : d'.clocks.lookup n with
      | none => rw [hi]
      | some i => rw [h'] at this; cases this
    | some i =>
      obtain ⟨i', h'⟩ := (hc n).2 ⟨i, h⟩
      rw [h']
      dsimp only
      rw [ha n i i' h h']
  | clock => exact he.elim
  | int => rfl
  | add l r ihl ihr => simp only [value, ihl he.1, ihr he.2]
  | dif l r ihl ihr => simp only [value, ihl he.1, ihr he.2]
  | mul l r ihl ihr => simp only [value, ihl he.1, ihr he.2]
  | div l r ihl ihr => simp only [value, constVal_renumber hc hi]
  | mod l r ihl ihr => simp only [value, constVal_renumber hc hi]

theorem holds_renumber {d d' : Decls} (hc : SameNames d d') (hi : d'.ints = d.ints) {v v' : Val}
    (ha : AgreeOn d d' v v') {g : BoolE} (hg : g.NamesOnly) : Holds d' v' g ↔ Holds d v g := by
  induction g with
  | and l r ihl ihr => exact and_congr (ihl hg.1) (ihr hg.2)
  | or l r ihl ihr => exact or_congr (ihl hg.1) (ihr hg.2)
  | bool b => exact Iff.rfl
  | _ => simp only [Holds, value_renumber hc hi ha hg.1, value_renumber hc hi ha hg.2]

end Reveaal
