import Verif.Spec.QueryText
import Verif.Props.C32
import Mathlib.Tactic.Set

/-!
# C51: printed queries are read as the same query
-/

namespace Reveaal
open Text

/-! ## Variables and operands -/

/-- The text begins with a letter. -/
theorem CompVar.head {v : CompVar} (h : v.Writable) : ∃ c cs, v.print = c :: cs ∧ c.isAlpha = true := by
  obtain ⟨c, i, x⟩ := v
  obtain ⟨h, _⟩ := h
  cases i with
  | none =>
    obtain ⟨d, cs, h1, h2, _⟩ := h
    exact ⟨d, _, by simp only [CompVar.print, SysExpr.print, h1]; rfl, h2⟩
  | some i =>
    obtain ⟨⟨d, cs, h1, h2, _⟩, _⟩ := h
    exact ⟨d, _, by simp only [CompVar.print, SysExpr.print, h1]; rfl, h2⟩

theorem after_dot (rest : Chars) : AfterName ('.' :: rest) :=
  ⟨ends_cons (by decide), by simp, by rw [skip_cons (by decide)]; simp⟩

theorem CompVar.reads {v : CompVar} (h : v.Writable) {rest : Chars} (hr : Ends rest) (hd : rest.head? ≠ some '-') :
    variableRule (v.print ++ rest) = some (v, rest) := by
  obtain ⟨c, i, x⟩ := v
  obtain ⟨h, hx⟩ := h
  have h1 : componentRule ((CompVar.mk c i x).print ++ rest) = some ((c, i), '.' :: (x.toList ++ rest)) := by
    cases i with
    | none =>
      have := component_none h (after_dot (x.toList ++ rest))
      simpa [CompVar.print, SysExpr.print] using this
    | some i =>
      have := component_some h.1 h.2 ('.' :: (x.toList ++ rest))
      simpa [CompVar.print, SysExpr.print] using this
  have h2 : skip ('.' :: (x.toList ++ rest)) = '.' :: (x.toList ++ rest) := skip_cons (by decide)
  have h3 : skip (x.toList ++ rest) = x.toList ++ rest := by
    obtain ⟨d, cs, e1, e2, _⟩ := hx
    rw [e1]; exact skip_word (isWord_of_alpha e2)
  have h4 := name_reads (isNameText_of hx) hr hd
  simp [variableRule, h1, h2, lit, h3, h4, String.ofList_toList]

/-- What may follow an operand -/
def AfterOperand (rest : Chars) : Prop := Ends rest ∧ rest.head? ≠ some '-'

/-- A number or variable -/
def Operand.Atom : Operand → Prop
  | .number n => 0 ≤ n ∧ n ≤ 2147483647
  | .clock v => v.Writable
  | _ => False

theorem Operand.Atom.reads {a : Operand} (h : a.Atom) {rest : Chars} (hr : AfterOperand rest) :
    operandRule (a.print ++ rest) = some (.ok a, rest) := by
  cases a with
  | number n =>
    obtain ⟨n, rfl⟩ := Int.eq_ofNat_of_zero_le h.1
    have hn : n ≤ 2147483647 := by have := h.2; omega
    show operandRule (Nat.toDigits 10 n ++ rest) = _
    simp only [operandRule, digits_append hr.1, readInt_toDigits hn]
    rfl
  | clock v =>
    have h1 : digits (v.print ++ rest) = none := by
      obtain ⟨c, cs, e1, e2⟩ := CompVar.head h
      rw [e1]; exact digits_word e2
    show operandRule (v.print ++ rest) = _
    simp only [operandRule, h1, CompVar.reads h hr.1 hr.2]
  | _ => exact h.elim

theorem Operand.Atom.head {a : Operand} (h : a.Atom) : ∃ c cs, a.print = c :: cs ∧ isWord c = true := by
  cases a with
  | number n =>
    obtain ⟨n, rfl⟩ := Int.eq_ofNat_of_zero_le h.1
    show ∃ c cs, Nat.toDigits 10 n = c :: cs ∧ _
    cases hd : Nat.toDigits 10 n with
    | nil => exact absurd hd Nat.toDigits_ne_nil
    | cons c cs => exact ⟨c, cs, rfl, isWord_of_digit (toDigits_isDigit n c (by rw [hd]; exact List.mem_cons_self ..))⟩
  | clock v =>
    obtain ⟨c, cs, e1, e2⟩ := CompVar.head h
    exact ⟨c, cs, e1, isWord_of_alpha e2⟩
  | _ => exact h.elim

/-- The leftmost atom, and the operators and atoms after it; `true` is a difference. -/
def Operand.spine : Operand → Operand × List (Bool × Operand)
  | .difference l r => (l.spine.1, l.spine.2 ++ [(true, r)])
  | .sum l r => (l.spine.1, l.spine.2 ++ [(false, r)])
  | a => (a, [])

/-- The text of an operator -/
def diffText (sub : Bool) : Chars := if sub then [' ', '-', ' '] else [' ', '+', ' ']

theorem Operand.spine_print (e : Operand) :
    e.print = e.spine.1.print ++ OpTree.writeTail Operand.print diffText e.spine.2 := by
  induction e with
  | number n => simp [spine, OpTree.writeTail]
  | clock v => simp [spine, OpTree.writeTail]
  | difference l r ihl _ =>
    simp only [print, spine, OpTree.writeTail_append, ihl]
    simp [OpTree.writeTail, diffText]
  | sum l r ihl _ =>
    simp only [print, spine, OpTree.writeTail_append, ihl]
    simp [OpTree.writeTail, diffText]

theorem Operand.spine_val (e : Operand) :
    (e.spine.2.map fun p => (p.1, (Except.ok p.2 : Res Operand))).foldl (fun acc p => lift2 (diffOf p.1) acc p.2)
      (.ok e.spine.1) = .ok e := by
  induction e with
  | number n => rfl
  | clock v => rfl
  | difference l r ihl _ => simp only [spine, List.map_append, List.foldl_append, ihl]; rfl
  | sum l r ihl _ => simp only [spine, List.map_append, List.foldl_append, ihl]; rfl

theorem Operand.Writable.spine {e : Operand} (h : e.Writable) : e.spine.1.Atom ∧ ∀ p ∈ e.spine.2, p.2.Atom := by
  induction e with
  | number n => exact ⟨h, by simp [Operand.spine]⟩
  | clock v => exact ⟨h, by simp [Operand.spine]⟩
  | difference l r ihl _ =>
    refine ⟨(ihl h.1).1, ?_⟩
    intro p hp
    rcases List.mem_append.1 hp with hp | hp
    · exact (ihl h.1).2 p hp
    · rw [List.mem_singleton] at hp
      subst hp
      have := h.2
      cases r <;> exact this
  | sum l r ihl _ =>
    refine ⟨(ihl h.1).1, ?_⟩
    intro p hp
    rcases List.mem_append.1 hp with hp | hp
    · exact (ihl h.1).2 p hp
    · rw [List.mem_singleton] at hp
      subst hp
      have := h.2
      cases r <;> exact this

theorem Operand.Writable.head {e : Operand} (h : e.Writable) : ∃ c cs, e.print = c :: cs ∧ isWord c = true := by
  obtain ⟨c, cs, h1, h2⟩ := h.spine.1.head
  exact ⟨c, _, by rw [e.spine_print, h1]; rfl, h2⟩

/-- The operators of sums and differences -/
def diffOp : Rule Bool := oneOf [(['-'], true), (['+'], false)]

theorem diffText_after (b : Bool) (rest : Chars) : AfterOperand (diffText b ++ rest) := by
  cases b <;> exact ⟨ends_cons (by decide), by simp [diffText]⟩

/-- A printed sum is read back. -/
theorem Operand.reads {e : Operand} (h : e.Writable) {rest : Chars} (hr : AfterOperand rest)
    (hend : ∀ o r, diffOp (skip rest) = some (o, r) → operandRule (skip r) = none) :
    boolDiffRule (e.print ++ rest) = some (.ok e, rest) := by
  obtain ⟨h1, h2⟩ := h.spine
  have hs : AfterOperand (OpTree.writeTail Operand.print diffText e.spine.2 ++ rest) := by
    cases hl : e.spine.2 with
    | nil => exact hr
    | cons p l =>
      obtain ⟨b, a⟩ := p
      show AfterOperand ((diffText b ++ _) ++ rest)
      rw [List.append_assoc]
      exact diffText_after b _
  have h3 := h1.reads hs
  have hlen := writeTail_length (leafText := Operand.print) (opText := diffText)
    (by intro o; cases o <;> simp [diffText]) e.spine.2
  have h4 := many_reads (op := diffOp) (term := operandRule) (leafText := Operand.print) (opText := diffText)
    (sem := Except.ok) (Stop := AfterOperand) e.spine.2 (fun p hp rest hr => (h2 p hp).reads hr)
    (by
      intro p hp rest
      obtain ⟨c, cs, e1, e2⟩ := (h2 p hp).head
      refine ⟨' ' :: (p.2.print ++ rest), ?_, ?_⟩
      · obtain ⟨b, a⟩ := p
        cases b <;> simp [diffText, skip, diffOp, oneOf, lit]
      · rw [show skip (' ' :: (p.2.print ++ rest)) = skip (p.2.print ++ rest) from rfl, e1]
        exact skip_word e2)
    (fun p _ rest => diffText_after p.1 rest) rest hr hend
    (OpTree.writeTail Operand.print diffText e.spine.2 ++ rest).length (by simp only [List.length_append]; omega)
  rw [e.spine_print, List.append_assoc]
  have h5 : many (oneOf [(['-'], true), (['+'], false)]) operandRule
      (OpTree.writeTail Operand.print diffText e.spine.2 ++ rest).length
      (OpTree.writeTail Operand.print diffText e.spine.2 ++ rest) = _ := h4
  simp only [boolDiffRule, h3, Option.bind_eq_bind, Option.bind_some, h5, e.spine_val]

/-! ## States -/

/-- What may follow a state or a part of it -/
def AfterState (rest : Chars) : Prop :=
  rest = [] ∨ ∃ r, rest = ')' :: r ∨ rest = [' ', '&', '&', ' '] ++ r ∨ rest = [' ', '-', '>', ' '] ++ r

/-- What may follow a whole state -/
def EndState (rest : Chars) : Prop := rest = [] ∨ ∃ r, rest = ')' :: r ∨ rest = [' ', '-', '>', ' '] ++ r

theorem EndState.after {rest : Chars} (h : EndState rest) : AfterState rest := by
  rcases h with h | ⟨r, h | h⟩
  · exact .inl h
  · exact .inr ⟨r, .inl h⟩
  · exact .inr ⟨r, .inr (.inr h)⟩

theorem skip_close (r : Chars) : skip (')' :: r) = ')' :: r := skip_cons (by decide)

theorem skip_amp (r : Chars) : skip ([' ', '&', '&', ' '] ++ r) = '&' :: '&' :: ' ' :: r := by
  show skip ('&' :: '&' :: ' ' :: r) = _
  exact skip_cons (by decide)

theorem skip_arrow (r : Chars) : skip ([' ', '-', '>', ' '] ++ r) = '-' :: '>' :: ' ' :: r := by
  show skip ('-' :: '>' :: ' ' :: r) = _
  exact skip_cons (by decide)

theorem AfterState.cases {P : Chars → Prop} {rest : Chars} (h : AfterState rest) (h0 : P (skip []))
    (h1 : ∀ r, P (skip (')' :: r))) (h2 : ∀ r, P (skip ([' ', '&', '&', ' '] ++ r)))
    (h3 : ∀ r, P (skip ([' ', '-', '>', ' '] ++ r))) : P (skip rest) := by
  rcases h with rfl | ⟨r, rfl | rfl | rfl⟩
  exacts [h0, h1 r, h2 r, h3 r]

theorem AfterState.name {rest : Chars} (h : AfterState rest) : AfterName rest := by
  refine ⟨?_, ?_, AfterState.cases h (P := fun cs => cs.head? ≠ some '[') (by simp [skip]) (fun r => by rw [skip_close]; simp)
    (fun r => by rw [skip_amp]; simp) (fun r => by rw [skip_arrow]; simp)⟩
  · rcases h with rfl | ⟨r, rfl | rfl | rfl⟩
    exacts [ends_nil, ends_cons (by decide), ends_cons (by decide), ends_cons (by decide)]
  · rcases h with rfl | ⟨r, rfl | rfl | rfl⟩ <;> simp

theorem AfterState.operand {rest : Chars} (h : AfterState rest) : AfterOperand rest := ⟨h.name.1, h.name.2.1⟩

theorem AfterState.diff {rest : Chars} (h : AfterState rest) :
    ∀ o r, diffOp (skip rest) = some (o, r) → operandRule (skip r) = none := by
  refine AfterState.cases h (P := fun cs => ∀ o r, diffOp cs = some (o, r) → operandRule (skip r) = none) ?_ ?_ ?_ ?_
  · intro o r h; cases h
  · intro r' o r h; rw [skip_close] at h; cases h
  · intro r' o r h; rw [skip_amp] at h; cases h
  · intro r' o r h; rw [skip_arrow] at h; cases h; rw [skip_cons (by decide)]; rfl

theorem AfterState.cmp {rest : Chars} (h : AfterState rest) : cmpOp (skip rest) = none := by
  refine AfterState.cases h (P := fun cs => cmpOp cs = none) rfl ?_ ?_ ?_
  · intro r; rw [skip_close]; rfl
  · intro r; rw [skip_amp]; rfl
  · intro r; rw [skip_arrow]; rfl

/-- The operators of conjunctions and disjunctions -/
def andOp : Rule Unit := oneOf [(['&', '&'], ()), ("and".toList, ())]
@[inherit_doc andOp]
def orOp : Rule Unit := oneOf [(['|', '|'], ()), ("or".toList, ())]

theorem AfterState.or {rest : Chars} (h : AfterState rest) : orOp (skip rest) = none := by
  refine AfterState.cases h (P := fun cs => orOp cs = none) rfl ?_ ?_ ?_
  · intro r; rw [skip_close]; rfl
  · intro r; rw [skip_amp]; rfl
  · intro r; rw [skip_arrow]; rfl

theorem AfterState.dot {rest : Chars} (h : AfterState rest) : (skip rest).head? ≠ some '.' := by
  refine AfterState.cases h (P := fun cs => cs.head? ≠ some '.') (by simp [skip]) ?_ ?_ ?_
  · intro r; rw [skip_close]; simp
  · intro r; rw [skip_amp]; simp
  · intro r; rw [skip_arrow]; simp

theorem EndState.and {rest : Chars} (h : EndState rest) : andOp (skip rest) = none := by
  rcases h with rfl | ⟨r, rfl | rfl⟩
  · rfl
  · rw [skip_close]; rfl
  · rw [skip_arrow]; rfl

/-- A name without a dot after it is not a variable. -/
theorem variable_none {w : String} (hw : IsName w) {rest : Chars} (hr : AfterName rest)
    (hd : (skip rest).head? ≠ some '.') : variableRule (w.toList ++ rest) = none := by
  simp [variableRule, component_none hw hr, lit_head hd]

theorem boolDiff_none {w : String} (hw : IsName w) {rest : Chars} (hr : AfterName rest)
    (hd : (skip rest).head? ≠ some '.') : boolDiffRule (w.toList ++ rest) = none := by
  have h1 : digits (w.toList ++ rest) = none := by
    obtain ⟨c, cs, e1, e2, _⟩ := hw
    rw [e1]; exact digits_word e2
  simp [boolDiffRule, operandRule, h1, variable_none hw hr hd]

theorem lit_prefix {l cs r : Chars} (h : lit l cs = some r) : l <+: cs := by
  induction l generalizing cs with
  | nil => exact List.nil_prefix
  | cons c l ih =>
    cases cs with
    | nil => cases h
    | cons d cs =>
      simp only [lit] at h
      split at h
      · rename_i hcd
        subst hcd
        obtain ⟨t, ht⟩ := ih h
        exact ⟨t, by rw [List.cons_append, ht]⟩
      · cases h

theorem prefix_word {l a b : Chars} (hl : ∀ c ∈ l, isWord c = true) (hb : Ends b) (h : l <+: a ++ b) : l <+: a := by
  induction l generalizing a with
  | nil => exact List.nil_prefix
  | cons c l ih =>
    cases a with
    | nil =>
      obtain ⟨t, ht⟩ := h
      have h1 := hb c (by rw [← List.nil_append b, ← ht]; rfl)
      rw [hl c (List.mem_cons_self ..)] at h1
      cases h1
    | cons d a =>
      rw [List.cons_append, List.cons_prefix_cons] at h
      rw [List.cons_prefix_cons]
      exact ⟨h.1, ih (fun c hc => hl c (List.mem_cons_of_mem _ hc)) h.2⟩

/-- The words of negation -/
def negOp : Rule Unit := oneOf [("not".toList, ()), (['!'], ())]

theorem neg_none {c : Char} {cs : Chars} (hc : isWord c = true) (h : lit "not".toList (c :: cs) = none) :
    negOp (c :: cs) = none := by
  have hne : '!' ≠ c := by rintro rfl; exact absurd hc (by decide)
  simp only [negOp, oneOf, h, lit, hne, if_false]

theorem CompVar.no_not {v : CompVar} (h : ¬ ['n', 'o', 't'] <+: v.component.toList) (rest : Chars) :
    lit "not".toList (v.print ++ rest) = none := by
  cases hl : lit "not".toList (v.print ++ rest) with
  | none => rfl
  | some r =>
    refine absurd ?_ h
    obtain ⟨c, i, x⟩ := v
    have hp : ['n', 'o', 't'] <+: (CompVar.mk c i x).print ++ rest := lit_prefix hl
    cases i with
    | none =>
      have e : (CompVar.mk c none x).print ++ rest = c.toList ++ ('.' :: (x.toList ++ rest)) := by
        simp [CompVar.print, SysExpr.print]
      rw [e] at hp
      exact prefix_word (by decide) (ends_cons (by decide)) hp
    | some i =>
      have e : (CompVar.mk c (some i) x).print ++ rest =
          c.toList ++ ('[' :: (i.toList ++ (']' :: '.' :: (x.toList ++ rest)))) := by
        simp [CompVar.print, SysExpr.print]
      rw [e] at hp
      exact prefix_word (by decide) (ends_cons (by decide)) hp

theorem Operand.no_not {e : Operand} (h : e.NotNot) (hw : e.Writable) (rest : Chars) :
    lit "not".toList (e.print ++ rest) = none := by
  induction e generalizing rest with
  | number n =>
    obtain ⟨n, rfl⟩ := Int.eq_ofNat_of_zero_le hw.1
    show lit "not".toList (Nat.toDigits 10 n ++ rest) = none
    cases hd : Nat.toDigits 10 n with
    | nil => exact absurd hd Nat.toDigits_ne_nil
    | cons c cs =>
      have := toDigits_isDigit n c (by rw [hd]; exact List.mem_cons_self ..)
      have hne : 'n' ≠ c := by rintro rfl; exact absurd this (by decide)
      simp [lit, hne]
  | clock v => exact CompVar.no_not h rest
  | difference l r ihl _ =>
    show lit "not".toList ((l.print ++ _) ++ rest) = none
    rw [List.append_assoc]
    exact ihl h hw.1 _
  | sum l r ihl _ =>
    show lit "not".toList ((l.print ++ _) ++ rest) = none
    rw [List.append_assoc]
    exact ihl h hw.1 _

/-- The rule for the innermost parts of a state -/
def subRule (n : Nat) : Rule SPair :=
  orElse (parens (boolStateRule n)) (orElse (notRule (boolStateRule n))
    (orElse compExprRule (orElse locExprRule stateBoolRule)))

theorem sub_leaf {n : Nat} {c : Char} {cs : Chars} (hc : isWord c = true) (h : lit "not".toList (c :: cs) = none) :
    subRule n (c :: cs) = orElse compExprRule (orElse locExprRule stateBoolRule) (c :: cs) := by
  have hne : '(' ≠ c := by rintro rfl; exact absurd hc (by decide)
  have h1 : parens (boolStateRule n) (c :: cs) = none := by simp [parens, lit, hne]
  have h2 : notRule (boolStateRule n) (c :: cs) = none := by
    have : oneOf [("not".toList, ()), (['!'], ())] (c :: cs) = none := neg_none hc h
    simp only [notRule, this, Option.bind_eq_bind, Option.bind_none]
  simp only [subRule, orElse, h1, h2]

theorem cmp_reads (op : Cmp) {l r : Operand} (hl : l.Writable) (hr : r.Writable) {rest : Chars} (h : AfterState rest) :
    compExprRule (l.print ++ (' ' :: (op.print ++ (' ' :: (r.print ++ rest))))) =
      some (.compExpr op (.ok l) (.ok r), rest) := by
  obtain ⟨c, cs, hc, hw⟩ := hr.head
  have hne : c ≠ '=' := by rintro rfl; exact absurd hw (by decide)
  have hs : skip (r.print ++ rest) = r.print ++ rest := by rw [hc]; exact skip_word hw
  have h1 := Operand.reads hl (rest := ' ' :: (op.print ++ (' ' :: (r.print ++ rest))))
    ⟨ends_cons (by decide), by simp⟩
    (by
      intro o r' ho
      cases op <;> simp [Cmp.print, skip, diffOp, oneOf, lit] at ho)
  have h2 : cmpOp (skip (' ' :: (op.print ++ (' ' :: (r.print ++ rest))))) = some (op, ' ' :: (r.print ++ rest)) := by
    cases op <;> simp [Cmp.print, skip, cmpOp, oneOf, lit]
  have h3 : skip (' ' :: (r.print ++ rest)) = r.print ++ rest := by
    rw [show skip (' ' :: (r.print ++ rest)) = skip (r.print ++ rest) from rfl, hs]
  have h4 := Operand.reads hr h.operand h.diff
  simp only [compExprRule, h1, Option.bind_eq_bind, Option.bind_some, h2, h3, h4]

theorem cmp_sub (n : Nat) (op : Cmp) {l r : Operand} (hl : l.Writable) (hn : l.NotNot) (hr : r.Writable) {rest : Chars}
    (h : AfterState rest) : subRule n ((StateExpr.cmp op l r).print ++ rest) = some (.compExpr op (.ok l) (.ok r), rest) := by
  have e : (StateExpr.cmp op l r).print ++ rest = l.print ++ (' ' :: (op.print ++ (' ' :: (r.print ++ rest)))) := by
    simp [StateExpr.print]
  obtain ⟨c, cs, hc, hw⟩ := hl.head
  have h1 := cmp_reads op hl hr h
  have h2 := Operand.no_not hn hl (' ' :: (op.print ++ (' ' :: (r.print ++ rest))))
  rw [e]
  rw [hc] at h1 h2 ⊢
  rw [List.cons_append] at h1 h2 ⊢
  rw [sub_leaf hw h2, orElse, h1]

theorem location_sub (n : Nat) {v : CompVar} (hv : v.Writable) (hn : ¬ ['n', 'o', 't'] <+: v.component.toList)
    {rest : Chars} (h : AfterState rest) : subRule n (v.print ++ rest) = some (.locExpr v, rest) := by
  obtain ⟨c, cs, hc, hw⟩ := CompVar.head hv
  have h1 := Operand.reads (e := .clock v) hv h.operand h.diff
  have h2 : compExprRule (v.print ++ rest) = none := by
    have h1' : boolDiffRule (v.print ++ rest) = _ := h1
    simp only [compExprRule, h1', Option.bind_eq_bind, Option.bind_some, h.cmp, Option.bind_none]
  have h3 : locExprRule (v.print ++ rest) = some (.locExpr v, rest) := by
    simp only [locExprRule, CompVar.reads hv h.operand.1 h.operand.2, Option.bind_eq_bind, Option.bind_some]
  have h4 := CompVar.no_not hn rest
  rw [hc] at h2 h3 h4 ⊢
  rw [List.cons_append] at h2 h3 h4 ⊢
  rw [sub_leaf (isWord_of_alpha hw) h4, orElse, h2]
  simp only [orElse, h3]

theorem bool_sub (n : Nat) (b : Bool) {rest : Chars} (h : AfterState rest) :
    subRule n ((StateExpr.bool b).print ++ rest) = some (.bool b, rest) := by
  have key : ∀ w : String, IsName w → compExprRule (w.toList ++ rest) = none ∧ locExprRule (w.toList ++ rest) = none := by
    intro w hw
    constructor
    · simp only [compExprRule, boolDiff_none hw h.name h.dot, Option.bind_eq_bind, Option.bind_none]
    · simp only [locExprRule, variable_none hw h.name h.dot, Option.bind_eq_bind, Option.bind_none]
  cases b with
  | true =>
    obtain ⟨h1, h2⟩ := key "true" (isName_of rfl (by decide))
    have h3 := sub_leaf (n := n) (c := 't') (cs := 'r' :: 'u' :: 'e' :: rest) (by decide) rfl
    show subRule n ('t' :: 'r' :: 'u' :: 'e' :: rest) = _
    rw [h3]
    have h1' : compExprRule ('t' :: 'r' :: 'u' :: 'e' :: rest) = none := h1
    have h2' : locExprRule ('t' :: 'r' :: 'u' :: 'e' :: rest) = none := h2
    simp only [orElse, h1', h2']
    rfl
  | false =>
    obtain ⟨h1, h2⟩ := key "false" (isName_of rfl (by decide))
    have h3 := sub_leaf (n := n) (c := 'f') (cs := 'a' :: 'l' :: 's' :: 'e' :: rest) (by decide) rfl
    show subRule n ('f' :: 'a' :: 'l' :: 's' :: 'e' :: rest) = _
    rw [h3]
    have h1' : compExprRule ('f' :: 'a' :: 'l' :: 's' :: 'e' :: rest) = none := h1
    have h2' : locExprRule ('f' :: 'a' :: 'l' :: 's' :: 'e' :: rest) = none := h2
    simp only [orElse, h1', h2']
    rfl

theorem StateExpr.printAll_eq (sep : Chars) (e : StateExpr) (es : List StateExpr) :
    StateExpr.printAll sep (e :: es) =
      e.print ++ OpTree.writeTail StateExpr.print (fun _ : Unit => sep) (es.map fun e => ((), e)) := by
  induction es generalizing e with
  | nil => simp [StateExpr.printAll, OpTree.writeTail]
  | cons e' es ih => rw [StateExpr.printAll, ih]; simp [OpTree.writeTail]

theorem StateExpr.printAll_length {sep : Chars} {e : StateExpr} {es : List StateExpr} (h : e ∈ es) :
    e.print.length ≤ (StateExpr.printAll sep es).length := by
  induction es with
  | nil => cases h
  | cons a es ih =>
    cases es with
    | nil => rw [List.mem_singleton] at h; subst h; simp [StateExpr.printAll]
    | cons b es =>
      rw [StateExpr.printAll]
      simp only [List.length_append]
      rcases List.mem_cons.1 h with rfl | h
      · omega
      · have := ih h; omega

/-- The text of a state begins with a letter, a digit or a parenthesis. -/
theorem StateExpr.Writable.head {e : StateExpr} (h : e.Writable) :
    ∃ c cs, e.print = c :: cs ∧ (isWord c = true ∨ c = '(') := by
  cases h with
  | cmp op hl hn hr =>
    obtain ⟨c, cs, h1, h2⟩ := hl.head
    exact ⟨c, _, by rw [StateExpr.print, h1]; rfl, .inl h2⟩
  | and hlen h => exact ⟨'(', _, by rw [StateExpr.print], .inr rfl⟩
  | location h hn =>
    obtain ⟨c, cs, h1, h2⟩ := CompVar.head h
    exact ⟨c, cs, by rw [StateExpr.print, h1], .inl (isWord_of_alpha h2)⟩
  | bool b =>
    cases b
    · exact ⟨'f', _, rfl, .inl (by decide)⟩
    · exact ⟨'t', _, rfl, .inl (by decide)⟩

theorem StateExpr.Writable.skip {e : StateExpr} (h : e.Writable) (rest : Chars) :
    Text.skip (e.print ++ rest) = e.print ++ rest := by
  obtain ⟨c, cs, h1, h2⟩ := h.head
  rw [h1]
  rcases h2 with h2 | rfl
  · exact skip_word h2
  · exact skip_cons (by decide)

/-- The rule for the conjuncts of a state -/
def orRule (n : Nat) : Rule SPair := listRule orOp .orExpr (subRule n)

theorem boolStateRule_succ (n : Nat) : boolStateRule (n + 1) = listRule andOp .andExpr (orRule n) := rfl

theorem or_reads {n : Nat} {e : StateExpr} {p : SPair}
    (h : ∀ rest, AfterState rest → subRule n (e.print ++ rest) = some (p, rest)) {rest : Chars} (hr : AfterState rest) :
    orRule n (e.print ++ rest) = some (.orExpr [p], rest) := by
  have h1 : many orOp (subRule n) rest.length rest = ([], rest) := by
    cases hl : rest.length with
    | zero => rfl
    | succ k => simp only [many, hr.or]
  simp only [orRule, listRule, h rest hr, Option.bind_eq_bind, Option.bind_some, h1, List.map_nil]

/-- A list of printed conjuncts is read back. -/
theorem and_reads {n : Nat} {e : StateExpr} {es : List StateExpr} {f : StateExpr → SPair}
    (hw : ∀ a ∈ e :: es, a.Writable)
    (h : ∀ a ∈ e :: es, ∀ rest, AfterState rest → subRule n (a.print ++ rest) = some (f a, rest)) {rest : Chars}
    (hr : EndState rest) :
    boolStateRule (n + 1) (StateExpr.printAll [' ', '&', '&', ' '] (e :: es) ++ rest) =
      some (.andExpr ((e :: es).map fun a => .orExpr [f a]), rest) := by
  set tail := OpTree.writeTail StateExpr.print (fun _ : Unit => [' ', '&', '&', ' ']) (es.map fun e => ((), e)) with ht
  have hs : AfterState (tail ++ rest) := by
    cases es with
    | nil => simpa [ht, OpTree.writeTail] using hr.after
    | cons b es => exact .inr ⟨_, .inr (.inl (by rw [ht]; simp only [List.map_cons, OpTree.writeTail, List.append_assoc]; rfl))⟩
  have h1 := or_reads (h e (List.mem_cons_self ..)) hs
  have hlen := writeTail_length (leafText := StateExpr.print) (opText := fun _ : Unit => [' ', '&', '&', ' '])
    (by simp) (es.map fun e => ((), e))
  have h2 := many_reads (op := andOp) (term := orRule n) (leafText := StateExpr.print)
    (opText := fun _ : Unit => [' ', '&', '&', ' ']) (sem := fun a => SPair.orExpr [f a]) (Stop := AfterState)
    (es.map fun e => ((), e))
    (by
      intro p hp rest hr
      obtain ⟨a, ha, rfl⟩ := List.mem_map.1 hp
      exact or_reads (h a (List.mem_cons_of_mem _ ha)) hr)
    (by
      intro p hp rest
      obtain ⟨a, ha, rfl⟩ := List.mem_map.1 hp
      refine ⟨' ' :: (a.print ++ rest), ?_, ?_⟩
      · rw [skip_amp]; rfl
      · exact (hw a (List.mem_cons_of_mem _ ha)).skip rest)
    (fun p _ rest => .inr ⟨rest, .inr (.inl rfl)⟩) rest hr.after
    (by intro o r h; rw [hr.and] at h; cases h) (tail ++ rest).length
    (by rw [← ht] at hlen; simp only [List.length_append]; omega)
  rw [StateExpr.printAll_eq, List.append_assoc, ← ht, boolStateRule_succ]
  rw [← ht] at h2
  simp only [listRule, h1, Option.bind_eq_bind, Option.bind_some, h2, List.map_map, Function.comp_def, List.map_cons]

theorem parse_or (p : SPair) : (SPair.orExpr [p]).parse = p.primary := by
  rw [SPair.parse, SPair.parseInner]

theorem parseAll_or {f : StateExpr → SPair} {es : List StateExpr} (h : ∀ e ∈ es, (f e).primary = .ok e) :
    SPair.parseAll (es.map fun a => .orExpr [f a]) = .ok es := by
  induction es with
  | nil => simp [SPair.parseAll]
  | cons e es ih =>
    rw [List.map_cons, SPair.parseAll, parse_or, h e (List.mem_cons_self ..),
      ih fun a ha => h a (List.mem_cons_of_mem _ ha)]
    rfl

theorem primary_and {f : StateExpr → SPair} {es : List StateExpr} (hlen : 2 ≤ es.length)
    (h : ∀ e ∈ es, (f e).primary = .ok e) :
    (SPair.andExpr (es.map fun a => .orExpr [f a])).primary = .ok (.and es) := by
  match es, hlen, h with
  | a :: b :: es, _, h =>
    have h2 := parseAll_or (fun e he => h e (List.mem_cons_of_mem _ he))
    rw [List.map_cons] at h2
    rw [SPair.primary, List.map_cons, List.map_cons, SPair.primaryList, parse_or, h a (List.mem_cons_self ..), h2]
    rfl

/-- Every part of a printed state is read as a pair that is turned into the same state. -/
theorem StateExpr.sub_reads (n : Nat) {e : StateExpr} (h : e.Writable) (hn : e.print.length ≤ n) :
    ∃ p : SPair, (∀ rest, AfterState rest → subRule n (e.print ++ rest) = some (p, rest)) ∧ p.primary = .ok e := by
  induction n generalizing e with
  | zero =>
    obtain ⟨c, cs, h1, _⟩ := h.head
    rw [h1] at hn; simp at hn
  | succ n ih =>
    cases h with
    | cmp op hl hnn hr => exact ⟨_, fun rest hr' => cmp_sub _ op hl hnn hr hr', by rw [SPair.primary]; rfl⟩
    | location hv hnn => exact ⟨_, fun rest hr => by rw [StateExpr.print]; exact location_sub _ hv hnn hr, by rw [SPair.primary]⟩
    | bool b => exact ⟨_, fun rest hr => bool_sub _ b hr, by rw [SPair.primary]⟩
    | @and es hlen h =>
      rw [StateExpr.print] at hn
      simp only [List.length_cons, List.length_append, List.length_nil] at hn
      have h1 : ∀ e, ∃ p : SPair, e ∈ es →
          (∀ rest, AfterState rest → subRule n (e.print ++ rest) = some (p, rest)) ∧ p.primary = .ok e := by
        intro e
        by_cases he : e ∈ es
        · have := StateExpr.printAll_length (sep := [' ', '&', '&', ' ']) he
          obtain ⟨p, hp⟩ := ih (h e he) (by omega)
          exact ⟨p, fun _ => hp⟩
        · exact ⟨.bool true, fun h => absurd h he⟩
      choose f hf using h1
      refine ⟨.andExpr (es.map fun a => .orExpr [f a]), ?_, primary_and hlen fun e he => (hf e he).2⟩
      intro rest hr
      cases es with
      | nil => simp at hlen
      | cons a es =>
        have h2 := and_reads h (fun e he => (hf e he).1) (rest := ')' :: rest) (.inr ⟨rest, .inl rfl⟩)
        have h3 : Text.skip (StateExpr.printAll [' ', '&', '&', ' '] (a :: es) ++ ')' :: rest) =
            StateExpr.printAll [' ', '&', '&', ' '] (a :: es) ++ ')' :: rest := by
          rw [StateExpr.printAll_eq, List.append_assoc]
          exact (h a (List.mem_cons_self ..)).skip _
        have e : (StateExpr.and (a :: es)).print ++ rest =
            '(' :: (StateExpr.printAll [' ', '&', '&', ' '] (a :: es) ++ ')' :: rest) := by
          rw [StateExpr.print]; simp
        rw [e]
        have h4 : parens (boolStateRule (n + 1)) ('(' :: (StateExpr.printAll [' ', '&', '&', ' '] (a :: es) ++ ')' :: rest)) =
            some (.andExpr ((a :: es).map fun a => .orExpr [f a]), rest) := by
          simp [parens, lit, h3, h2, skip_close]
        simp only [subRule, orElse, h4]

/-- A printed state is read back, up to any text that may follow it. -/
theorem StateExpr.reads {e : StateExpr} (h : e.Writable) {rest : Chars} (hr : EndState rest) :
    stateRule (e.print ++ rest) = some (.ok e, rest) := by
  obtain ⟨p, h1, h2⟩ := StateExpr.sub_reads (e.print ++ rest).length h (by simp)
  have h3 := and_reads (f := fun _ => p) (e := e) (es := []) (by simpa using h) (by simpa using h1) hr
  simp only [StateExpr.printAll, List.map_cons, List.map_nil] at h3
  have h4 : (SPair.andExpr [.orExpr [p]]).primary = .ok e := by
    rw [SPair.primary, SPair.primaryList, parse_or, h2]
  simp only [stateRule, List.length_append, h3, Option.bind_eq_bind, Option.bind_some, h4]

/-! ## Queries -/

theorem AfterName.of_blank {c : Char} {cs : Chars} (h : (skip cs).head? = some c) (hc : c ≠ '[') : AfterName (' ' :: cs) :=
  ⟨ends_cons (by decide), by simp, by
    rw [show skip (' ' :: cs) = skip cs from rfl, h]
    simpa using hc⟩

/-- A printed system is read after a keyword and a blank. -/
theorem sys_reads {e : SysExpr} (h : e.Writable) {rest : Chars} (hr : AfterName rest)
    (hend : featureOp (skip rest) = none) :
    sysRule ((' ' :: (e.print ++ rest)).length + 1) (skip (' ' :: (e.print ++ rest))) = some (.ok e, rest) := by
  rw [show skip (' ' :: (e.print ++ rest)) = skip (e.print ++ rest) from rfl, h.skip]
  have := e.depth_print
  exact SysExpr.reads h (by simp only [List.length_cons, List.length_append]; omega) hr hend

theorem sysQuery_reads (keyword : String) (mk : SysExpr → QueryExpr) {s : SysExpr} (h : s.Writable) :
    sysQueryRule keyword mk (keyword.toList ++ ' ' :: s.print) = some (.ok (mk s), []) := by
  have h1 := sys_reads h after_nil rfl
  rw [List.append_nil] at h1
  simp only [sysQueryRule, lit_append, Option.bind_eq_bind, Option.bind_some, h1]
  rfl

theorem saveQuery_reads (keyword : String) (mk : SaveExpr → QueryExpr) {s : SysExpr} (h : s.Writable) :
    saveQueryRule keyword mk (keyword.toList ++ ' ' :: s.print) = some (.ok (mk ⟨s, none⟩), []) := by
  have h1 := sys_reads h after_nil rfl
  rw [List.append_nil] at h1
  simp only [saveQueryRule, lit_append, Option.bind_eq_bind, Option.bind_some, h1]
  rfl

theorem refinement_reads {l r : SysExpr} (hl : l.Writable) (hr : r.Writable) :
    refinementRule (QueryExpr.refinement l r).print = some (.ok (.refinement l r), []) := by
  have h1 := sys_reads hl (rest := [' ', '<', '=', ' '] ++ r.print)
    (AfterName.of_blank (c := '<') (by simp [skip]) (by decide)) (by simp [skip, featureOp, oneOf, lit])
  have h2 := sys_reads hr after_nil rfl
  rw [List.append_nil] at h2
  have h3 : lit ['<', '='] (skip ([' ', '<', '=', ' '] ++ r.print)) = some (' ' :: r.print) := by simp [skip, lit]
  have h0 : lit "refinement:".toList (QueryExpr.refinement l r).print =
      some (' ' :: (l.print ++ ([' ', '<', '=', ' '] ++ r.print))) := lit_append _ _
  rw [refinementRule, h0]
  simp only [Option.bind_eq_bind, Option.bind_some, h1, h3, h2]
  rfl

theorem start_reads {start : Option StateExpr} (h : ∀ e ∈ start, e.Writable) (rest : Chars) :
    startRule (skip (' ' :: (startText start ++
      ([' ', '-', '>', ' '] ++ rest)))) = some (start.map .ok, [' ', '-', '>', ' '] ++ rest) := by
  have hend : EndState ([' ', '-', '>', ' '] ++ rest) := .inr ⟨rest, .inr rfl⟩
  cases start with
  | some e =>
    have he := h e rfl
    show startRule (skip (e.print ++ _)) = _
    rw [he.skip]
    simp only [startRule, StateExpr.reads he hend, Option.map_some]
  | none =>
    show startRule ("init".toList ++ ([' ', '-', '>', ' '] ++ rest)) = _
    have hi : IsName "init" := isName_of rfl (by decide)
    have h1 := boolDiff_none hi hend.after.name hend.after.dot
    have h2 := variable_none hi hend.after.name hend.after.dot
    set cs := "init".toList ++ ([' ', '-', '>', ' '] ++ rest) with hcs
    have h3 : ∀ n, subRule n cs = none := by
      intro n
      have : cs = 'i' :: 'n' :: 'i' :: 't' :: ([' ', '-', '>', ' '] ++ rest) := rfl
      rw [this, sub_leaf (by decide) rfl, ← this]
      have h5 : compExprRule cs = none := by simp only [compExprRule, h1, Option.bind_eq_bind, Option.bind_none]
      have h6 : locExprRule cs = none := by simp only [locExprRule, h2, Option.bind_eq_bind, Option.bind_none]
      simp only [orElse, h5, h6]
      rfl
    have h4 : stateRule cs = none := by
      have h7 : ∀ n, boolStateRule n cs = none := by
        intro n
        cases n with
        | zero => rfl
        | succ n =>
          rw [boolStateRule_succ]
          simp only [listRule, orRule, h3, Option.bind_eq_bind, Option.bind_none]
      simp only [stateRule, h7, Option.bind_eq_bind, Option.bind_none]
    simp only [startRule, h4]
    rfl

theorem reachability_reads {s : SysExpr} {start : Option StateExpr} {goal : StateExpr} (hs : s.Writable)
    (hstart : ∀ e ∈ start, e.Writable) (hg : goal.Writable) :
    reachabilityRule (QueryExpr.reachability s start goal).print = some (.ok (.reachability s start goal), []) := by
  have h2 := start_reads hstart goal.print
  have h1 := sys_reads hs
    (rest := [' ', '@', ' '] ++ (startText start ++
      ([' ', '-', '>', ' '] ++ goal.print)))
    (AfterName.of_blank (c := '@') (by simp [skip]) (by decide)) (by simp [skip, featureOp, oneOf, lit])
  have h5 : ∀ cs, lit ['@'] (skip ([' ', '@', ' '] ++ cs)) = some (' ' :: cs) := by simp [skip, lit]
  have h6 : ∀ cs, lit ['-', '>'] (skip ([' ', '-', '>', ' '] ++ cs)) = some (' ' :: cs) := by simp [skip, lit]
  have h7 : stateRule (skip (' ' :: goal.print)) = some (.ok goal, []) := by
    have h8 := StateExpr.reads hg (rest := []) (.inl rfl)
    have h9 := hg.skip []
    rw [List.append_nil] at h8 h9
    rw [show skip (' ' :: goal.print) = skip goal.print from rfl, h9, h8]
  have h0 : lit "reachability:".toList (QueryExpr.reachability s start goal).print =
      some (' ' :: (s.print ++ ([' ', '@', ' '] ++ (startText start ++
        ([' ', '-', '>', ' '] ++ goal.print))))) := lit_append _ _
  rw [reachabilityRule, h0]
  simp only [Option.bind_eq_bind, Option.bind_some, h1, h5, h2, h6, h7]
  cases start <;> rfl

theorem orElse_none {α : Type} {a b : Rule α} {cs : Chars} (h : a cs = none) : orElse a b cs = b cs := by
  simp only [orElse, h]

theorem orElse_some {α : Type} {a b : Rule α} {cs : Chars} {x : α × Chars} (h : a cs = some x) :
    orElse a b cs = some x := by
  simp only [orElse, h]

theorem sysQuery_none {keyword : String} {mk : SysExpr → QueryExpr} {cs : Chars} (h : lit keyword.toList cs = none) :
    sysQueryRule keyword mk cs = none := by
  simp only [sysQueryRule, h, Option.bind_eq_bind, Option.bind_none]

theorem saveQuery_none {keyword : String} {mk : SaveExpr → QueryExpr} {cs : Chars} (h : lit keyword.toList cs = none) :
    saveQueryRule keyword mk cs = none := by
  simp only [saveQueryRule, h, Option.bind_eq_bind, Option.bind_none]

theorem refinement_none {cs : Chars} (h : lit "refinement:".toList cs = none) : refinementRule cs = none := by
  rw [refinementRule, h]; rfl

theorem reachability_none {cs : Chars} (h : lit "reachability:".toList cs = none) : reachabilityRule cs = none := by
  rw [reachabilityRule, h]; rfl

theorem query_reads {q : QueryExpr} (h : q.Writable) : queryRule q.print = some (.ok q, []) := by
  cases q with
  | refinement l r => exact orElse_some (refinement_reads h.1 h.2)
  | consistency s =>
    rw [queryRule, orElse_none (refinement_none rfl)]
    exact orElse_some (sysQuery_reads "consistency:" _ h)
  | reachability s start goal =>
    rw [queryRule, orElse_none (refinement_none rfl), orElse_none (sysQuery_none rfl)]
    exact orElse_some (reachability_reads h.1 h.2.1 h.2.2)
  | implementation s =>
    rw [queryRule, orElse_none (refinement_none rfl), orElse_none (sysQuery_none rfl), orElse_none (reachability_none rfl)]
    exact orElse_some (sysQuery_reads "implementation:" _ h)
  | determinism s =>
    rw [queryRule, orElse_none (refinement_none rfl), orElse_none (sysQuery_none rfl), orElse_none (reachability_none rfl), orElse_none (sysQuery_none rfl)]
    exact orElse_some (sysQuery_reads "determinism:" _ h)
  | specification s =>
    rw [queryRule, orElse_none (refinement_none rfl), orElse_none (sysQuery_none rfl), orElse_none (reachability_none rfl), orElse_none (sysQuery_none rfl), orElse_none (sysQuery_none rfl)]
    exact orElse_some (sysQuery_reads "specification:" _ h)
  | getComponent s =>
    obtain ⟨s, name⟩ := s
    obtain ⟨h, rfl⟩ := h
    rw [queryRule, orElse_none (refinement_none rfl), orElse_none (sysQuery_none rfl), orElse_none (reachability_none rfl), orElse_none (sysQuery_none rfl), orElse_none (sysQuery_none rfl), orElse_none (sysQuery_none rfl)]
    exact orElse_some (saveQuery_reads "get-component:" _ h)
  | prune s =>
    obtain ⟨s, name⟩ := s
    obtain ⟨h, rfl⟩ := h
    rw [queryRule, orElse_none (refinement_none rfl), orElse_none (sysQuery_none rfl), orElse_none (reachability_none rfl), orElse_none (sysQuery_none rfl), orElse_none (sysQuery_none rfl), orElse_none (sysQuery_none rfl), orElse_none (saveQuery_none rfl)]
    exact orElse_some (saveQuery_reads "prune:" _ h)
  | bisimMinim s =>
    obtain ⟨s, name⟩ := s
    obtain ⟨h, rfl⟩ := h
    rw [queryRule, orElse_none (refinement_none rfl), orElse_none (sysQuery_none rfl), orElse_none (reachability_none rfl), orElse_none (sysQuery_none rfl), orElse_none (sysQuery_none rfl), orElse_none (sysQuery_none rfl), orElse_none (saveQuery_none rfl), orElse_none (saveQuery_none rfl)]
    exact saveQuery_reads "bisim-minim:" _ h

theorem query_head (q : QueryExpr) : ∃ c cs, q.print = c :: cs ∧ c.isAlpha = true := by
  cases q
  · exact ⟨'r', _, rfl, by decide⟩
  · exact ⟨'c', _, rfl, by decide⟩
  · exact ⟨'r', _, rfl, by decide⟩
  · exact ⟨'i', _, rfl, by decide⟩
  · exact ⟨'d', _, rfl, by decide⟩
  · exact ⟨'s', _, rfl, by decide⟩
  · exact ⟨'g', _, rfl, by decide⟩
  · exact ⟨'p', _, rfl, by decide⟩
  · exact ⟨'b', _, rfl, by decide⟩

/-- **C51 (part).** A query without a name to save under, whose states are nestings of conjunctions, is printed to a text
that is read as that query alone.  Not covered, and false: queries with `save-as` (`C51_violated_save`) and states with
negations (`C51_violated_not`). -/
theorem C51_roundtrip_partial {q : QueryExpr} (h : q.Writable) : parseQueries q.print = .ok [q] := by
  obtain ⟨c, cs, h1, h2⟩ := query_head q
  have h3 : skip q.print = q.print := by rw [h1]; exact skip_word (isWord_of_alpha h2)
  simp only [parseQueries, h3, query_reads h]
  rfl

/-- The only query of the list, if it is to save a component -/
def onlySave : Res (List QueryExpr) → Option SaveExpr
  | .ok [.getComponent s] => some s
  | _ => none

theorem onlySave_ok {r : Res (List QueryExpr)} {s : SaveExpr} (h : onlySave r = some s) : r = .ok [.getComponent s] := by
  match r, h with
  | .ok [.getComponent s], rfl => rfl

/-- **C51 is violated.** The name to save under and the system change places. -/
theorem C51_violated_save : ∃ (cs : Chars) (q q' : QueryExpr),
    parseQueries cs = .ok [q] ∧ parseQueries q.print = .ok [q'] ∧
    q = .getComponent ⟨.component "A" none, some "B"⟩ ∧ q' = .getComponent ⟨.component "B" none, some "A"⟩ :=
  ⟨"get-component: A save-as B".toList, _, _, onlySave_ok (by decide +kernel), onlySave_ok (by decide +kernel), rfl, rfl⟩

/-- The location of the only query of the list, if that asks for the negation of a location of the component `A` -/
def onlyNot : Res (List QueryExpr) → Option CompVar
  | .ok [.reachability s none (.not (.location v))] => if s = .component "A" none then some v else none
  | _ => none

theorem onlyNot_ok {r : Res (List QueryExpr)} {v : CompVar} (h : onlyNot r = some v) :
    r = .ok [.reachability (.component "A" none) none (.not (.location v))] := by
  match r, h with
  | .ok [.reachability s none (.not (.location v'))], h =>
    simp only [onlyNot] at h
    split at h
    · rename_i hs; cases h; rw [hs]
    · cases h

/-- The message of a panic -/
def panicOf {α : Type} : Res α → Option String
  | .error (.panic m) => some m
  | _ => none

theorem panicOf_ok {α : Type} {r : Res α} {m : String} (h : panicOf r = some m) : r = .error (.panic m) := by
  match r, h with
  | .error (.panic m), rfl => rfl

/-- **C51 is violated.** A state that was read with a negation cannot be read again. -/
theorem C51_violated_not : ∃ (cs : Chars) (q : QueryExpr) (m : String),
    parseQueries cs = .ok [q] ∧ parseQueries q.print = .error (.panic m) :=
  ⟨"reachability: A @ init -> !!A.L1".toList,
    .reachability (.component "A" none) none (.not (.location ⟨"A", none, "L1"⟩)),
    "internal error: entered unreachable code: Unexpected rule: variable", onlyNot_ok (by decide +kernel),
    panicOf_ok (by decide +kernel)⟩

/-! ## Non-vacuity -/

/-- `reachability: (A[1] || B) @ (A[1].L1 && (B.x - A[1].y + 3 <= 7 && true)) -> B.L2` -/
def exQuery : QueryExpr :=
  .reachability (.composition (.component "A" (some "1")) (.component "B" none))
    (some (.and [.location ⟨"A", some "1", "L1"⟩, .and [.cmp .leq (.sum (.difference (.clock ⟨"B", none, "x"⟩)
      (.clock ⟨"A", some "1", "y"⟩)) (.number 3)) (.number 7), .bool true]]))
    (.location ⟨"B", none, "L2"⟩)

example : exQuery.Writable := by
  have a : IsName "A" := isName_of rfl (by decide)
  have b : IsName "B" := isName_of rfl (by decide)
  have x : IsName "x" := isName_of rfl (by decide)
  have y : IsName "y" := isName_of rfl (by decide)
  have l1 : IsName "L1" := isName_of rfl (by decide)
  have l2 : IsName "L2" := isName_of rfl (by decide)
  have i : IsSpecialId "1" := ⟨'1', [], rfl, by decide, by decide, by decide, by decide, by decide, by decide⟩
  refine ⟨⟨⟨a, i⟩, b⟩, ?_, .location ⟨b, l2⟩ (by decide)⟩
  rintro e ⟨⟩
  refine .and (by decide) ?_
  intro e he
  rcases List.mem_cons.1 he with rfl | he
  · exact .location ⟨⟨a, i⟩, l1⟩ (by decide)
  · rw [List.mem_singleton] at he
    subst he
    refine .and (by decide) ?_
    intro e he
    rcases List.mem_cons.1 he with rfl | he
    · refine .cmp _ ⟨⟨⟨b, x⟩, ⟨⟨a, i⟩, y⟩⟩, ?_, ?_⟩ (by decide : ¬ _) ⟨?_, ?_⟩ <;> decide
    · rw [List.mem_singleton] at he
      subst he
      exact .bool true

example : exQuery.print =
    "reachability: (A[1] || B) @ (A[1].L1 && (B.x - A[1].y + 3 <= 7 && true)) -> B.L2".toList := by decide +kernel

end Reveaal
