import Verif.Spec.SystemText
import Verif.Props.C51

/-!
# Reading the states of reachability queries as users write them
-/

namespace Reveaal
open Text

/-! ## Infix expressions whose operators are written in several ways -/

namespace Text.OpTree
variable {τ α κ ω : Type}

/-- The expression with every operand and every operator replaced -/
def both (f : τ → α) (g : κ → ω) : OpTree τ κ → OpTree α ω
  | leaf a => leaf (f a)
  | node l o r => node (l.both f g) (g o) (r.both f g)

theorem both_first (f : τ → α) (g : κ → ω) (t : OpTree τ κ) : (t.both f g).first = f t.first := by
  induction t with
  | leaf a => rfl
  | node l o r ihl ihr => exact ihl

theorem both_tail (f : τ → α) (g : κ → ω) (t : OpTree τ κ) :
    (t.both f g).tail = t.tail.map fun p => (g p.1, f p.2) := by
  induction t with
  | leaf a => rfl
  | node l o r ihl ihr => simp [both, tail, ihl, ihr, both_first]

theorem both_fits {prec : ω → Nat} (f : τ → α) (g : κ → ω) {p : Nat} {t : OpTree τ κ} (h : t.Fits (fun k => prec (g k)) p) :
    (t.both f g).Fits prec p := by
  induction t generalizing p with
  | leaf a => trivial
  | node l o r ihl ihr => exact ⟨h.1, ihl h.2.1, ihr h.2.2⟩

end Text.OpTree

section
variable {τ α κ ω : Type}

theorem many_reads_signs {op : Rule ω} {term : Rule α} {leafText : τ → Chars} {opText : κ → Chars} {sem : τ → α}
    {g : κ → ω} {Stop : Chars → Prop} (l : List (κ × τ))
    (hterm : ∀ p ∈ l, ∀ rest, Stop rest → term (leafText p.2 ++ rest) = some (sem p.2, rest))
    (hop : ∀ p ∈ l, ∀ rest, ∃ r, op (skip (opText p.1 ++ (leafText p.2 ++ rest))) = some (g p.1, r) ∧
      skip r = leafText p.2 ++ rest)
    (hstop : ∀ p ∈ l, ∀ rest, Stop (opText p.1 ++ rest))
    (rest : Chars) (hrest : Stop rest) (hend : op (skip rest) = none) (n : Nat) (hn : l.length ≤ n) :
    many op term n (OpTree.writeTail leafText opText l ++ rest) = (l.map fun p => (g p.1, sem p.2), rest) := by
  induction l generalizing n with
  | nil =>
    cases n with
    | zero => rfl
    | succ n => simp only [OpTree.writeTail, List.nil_append, many, List.map_nil, hend]
  | cons p l ih =>
    cases n with
    | zero => simp at hn
    | succ n =>
      obtain ⟨r, h1, h2⟩ := hop p (List.mem_cons_self ..) (OpTree.writeTail leafText opText l ++ rest)
      have hs : Stop (OpTree.writeTail leafText opText l ++ rest) := by
        cases l with
        | nil => exact hrest
        | cons q l =>
          obtain ⟨o, a⟩ := q
          show Stop ((opText o ++ _) ++ rest)
          rw [List.append_assoc]
          exact hstop (o, a) (by simp) _
      have h3 := hterm p (List.mem_cons_self ..) _ hs
      have h4 := ih (fun q hq => hterm q (List.mem_cons_of_mem _ hq)) (fun q hq => hop q (List.mem_cons_of_mem _ hq))
        (fun q hq => hstop q (List.mem_cons_of_mem _ hq)) n (by simpa using hn)
      have e : OpTree.writeTail leafText opText (p :: l) ++ rest
          = opText p.1 ++ (leafText p.2 ++ (OpTree.writeTail leafText opText l ++ rest)) := by
        simp [OpTree.writeTail]
      rw [e]
      simp only [many, h1, h2, h3, h4, List.map_cons]

theorem infixRule_reads_signs {op : Rule ω} {prec : ω → Nat} {mk : ω → α → α → α} {term : Rule (Res α)}
    {leafText : τ → Chars} {opText : κ → Chars} {sem : τ → Res α} {g : κ → ω} {Stop : Chars → Prop} (t : OpTree τ κ)
    (hfit : t.Fits (fun k => prec (g k)) 1) (hne : ∀ o, opText o ≠ [])
    (hterm : ∀ a, t.Leaf a → ∀ rest, Stop rest → term (leafText a ++ rest) = some (sem a, rest))
    (hop : ∀ o a, t.Leaf a → ∀ rest, ∃ r, op (skip (opText o ++ (leafText a ++ rest))) = some (g o, r) ∧
      skip r = leafText a ++ rest)
    (hstop : ∀ o rest, Stop (opText o ++ rest))
    (rest : Chars) (hrest : Stop rest) (hend : op (skip rest) = none) :
    infixRule op prec mk term (t.write leafText opText ++ rest) =
      some ((t.both sem g).val fun l o x => lift2 (mk o) l x, rest) := by
  have hs : Stop (OpTree.writeTail leafText opText t.tail ++ rest) := by
    cases h : t.tail with
    | nil => exact hrest
    | cons q l =>
      obtain ⟨o, a⟩ := q
      show Stop ((opText o ++ _) ++ rest)
      rw [List.append_assoc]
      exact hstop o _
  have h1 := hterm t.first t.leaf_first _ hs
  have hlen := writeTail_length (leafText := leafText) hne t.tail
  have h2 := many_reads_signs (op := op) (term := term) (sem := sem) (g := g) t.tail
    (fun p hp => hterm p.2 (t.leaf_tail p hp)) (fun p hp => hop p.1 p.2 (t.leaf_tail p hp)) (fun p _ => hstop p.1)
    rest hrest hend (OpTree.writeTail leafText opText t.tail ++ rest).length (by simp only [List.length_append]; omega)
  have h3 := OpTree.parse_tree (prec := prec) (mk := fun l o x => lift2 (mk o) l x) (OpTree.both_fits sem g hfit)
  rw [OpTree.both_first, OpTree.both_tail] at h3
  rw [OpTree.write_eq, List.append_assoc]
  simp only [infixRule, h1, Option.bind_eq_bind, Option.bind_some, h2, h3]

end

/-! ## Blanks -/

theorem skip_blanks (bs : List Blank) (cs : Chars) : skip (blanks bs ++ cs) = skip cs := by
  induction bs with
  | nil => rfl
  | cons b bs ih =>
    have e : blanks (b :: bs) ++ cs = b.text ++ (blanks bs ++ cs) := by simp [blanks]
    rw [e, ← ih]
    cases b <;> simp [Blank.text, skip]

/-- What follows a name after blanks, if the character that comes then cannot continue it. -/
theorem after_blanks (bs : List Blank) {cs : Chars} (h : AfterName cs) : AfterName (blanks bs ++ cs) := by
  cases bs with
  | nil => exact h
  | cons b bs =>
    have h3 := skip_blanks (b :: bs) cs
    refine ⟨?_, ?_, by rw [h3]; exact h.2.2⟩ <;>
      cases b <;> simp [blanks, Blank.text, Ends, isWord] <;> decide

/-- The same if there is a blank at least -/
theorem after_blank (b : Blank) (bs : List Blank) {cs : Chars} (h : (skip cs).head? ≠ some '[') :
    AfterName (blanks (b :: bs) ++ cs) := by
  have h3 := skip_blanks (b :: bs) cs
  refine ⟨?_, ?_, by rw [h3]; exact h⟩ <;>
    cases b <;> simp [blanks, Blank.text, Ends, isWord] <;> decide

/-! ## Components and variables -/

theorem CompText.reads {c : CompText} (h : c.meaning.Writable) {rest : Chars} (hr : AfterName rest) :
    componentRule (c.text ++ rest) = some ((c.name, c.id.map fun i => i.2.2), rest) := by
  obtain ⟨name, id⟩ := c
  match id, h with
  | none, h => exact component_none h hr
  | some (b, b', id), h =>
    obtain ⟨hn, hi⟩ := h
    have e : (CompText.mk name (some (b, b', id))).text ++ rest =
        name.toList ++ (blanks b ++ ('[' :: (blanks b' ++ (id.toList ++ (']' :: rest))))) := by
      simp [CompText.text]
    have hs := hi.skip_append rest
    have hsk : skip (blanks b ++ ('[' :: (blanks b' ++ (id.toList ++ (']' :: rest))))) =
        '[' :: (blanks b' ++ (id.toList ++ (']' :: rest))) := by
      rw [skip_blanks]; exact skip_cons (by decide)
    obtain ⟨d, ds, hd, _, _, _, _, h1, h2⟩ := hi
    have h3 := specialId_reads (rest := rest) (i := id.toList) (by rw [hd]; simp) hs
      (by rw [hd]; exact h1) (by rw [hd]; exact h2)
    have h4 : specialIdRule ('[' :: (blanks b' ++ (id.toList ++ (']' :: rest)))) = some (id.toList, rest) := by
      have h5 : skip (blanks b' ++ (id.toList ++ (']' :: rest))) = skip (id.toList ++ (']' :: rest)) := skip_blanks ..
      rw [← h3]
      simp only [specialIdRule, lit, if_pos, Option.bind_eq_bind, Option.bind_some, h5]
    have hend : Ends (blanks b ++ ('[' :: (blanks b' ++ (id.toList ++ (']' :: rest))))) ∧
        (blanks b ++ ('[' :: (blanks b' ++ (id.toList ++ (']' :: rest))))).head? ≠ some '-' := by
      cases b with
      | nil => exact ⟨ends_cons (by decide), by simp [blanks]⟩
      | cons b bs => constructor <;> cases b <;> simp [blanks, Blank.text, Ends, isWord] <;> decide
    rw [e]
    simp [componentRule, name_reads (isNameText_of hn) hend.1 hend.2, hsk, h4, String.ofList_toList]

theorem CompText.head {c : CompText} (h : c.meaning.Writable) : ∃ d cs, c.text = d :: cs ∧ d.isAlpha = true := by
  obtain ⟨name, id⟩ := c
  match id, h with
  | none, h => obtain ⟨c, cs, h1, h2, _⟩ := h; exact ⟨c, cs, h1, h2⟩
  | some (b, b', id), h =>
    obtain ⟨⟨c, cs, h1, h2, _⟩, _⟩ := h
    exact ⟨c, _, by simp only [CompText.text, h1]; rfl, h2⟩

theorem VarText.head {v : VarText} (h : v.meaning.Writable) : ∃ d cs, v.text = d :: cs ∧ d.isAlpha = true := by
  obtain ⟨d, cs, h1, h2⟩ := CompText.head (c := v.comp) h.1
  exact ⟨d, _, by simp only [VarText.text, h1]; rfl, h2⟩

theorem VarText.reads {v : VarText} (h : v.meaning.Writable) {rest : Chars} (hr : AfterOperand rest) :
    variableRule (v.text ++ rest) = some (v.meaning, rest) := by
  obtain ⟨c, b, b', x⟩ := v
  obtain ⟨hc, hx⟩ := h
  replace hx : IsName x := hx
  have e : (VarText.mk c b b' x).text ++ rest = c.text ++ (blanks b ++ ('.' :: (blanks b' ++ (x.toList ++ rest)))) := by
    simp [VarText.text]
  have h1 := CompText.reads (c := c) hc (after_blanks b (after_dot (blanks b' ++ (x.toList ++ rest))))
  have h2 : skip (blanks b ++ ('.' :: (blanks b' ++ (x.toList ++ rest)))) = '.' :: (blanks b' ++ (x.toList ++ rest)) := by
    rw [skip_blanks]; exact skip_cons (by decide)
  have h3 : skip (blanks b' ++ (x.toList ++ rest)) = x.toList ++ rest := by
    obtain ⟨d, cs, e1, e2, _⟩ := hx
    rw [skip_blanks, e1]; exact skip_word (isWord_of_alpha e2)
  have h4 := name_reads (isNameText_of hx) hr.1 hr.2
  rw [e]
  simp only [variableRule, h1, Option.bind_eq_bind, Option.bind_some, h2, lit, if_pos, h3]
  simp [h4, VarText.meaning, String.ofList_toList]

theorem CompText.no_not {c : CompText} (h : ¬ ['n', 'o', 't'] <+: c.name.toList) {rest : Chars} (hr : Ends rest) :
    lit "not".toList (c.text ++ rest) = none := by
  cases hl : lit "not".toList (c.text ++ rest) with
  | none => rfl
  | some r =>
    refine absurd ?_ h
    obtain ⟨name, id⟩ := c
    have hp : ['n', 'o', 't'] <+: (CompText.mk name id).text ++ rest := lit_prefix hl
    cases id with
    | none => exact prefix_word (by decide) hr hp
    | some i =>
      obtain ⟨b, b', id⟩ := i
      have e : (CompText.mk name (some (b, b', id))).text ++ rest =
          name.toList ++ (blanks b ++ ('[' :: (blanks b' ++ (id.toList ++ (']' :: rest))))) := by
        simp [CompText.text]
      rw [e] at hp
      refine prefix_word (by decide) ?_ hp
      cases b with
      | nil => exact ends_cons (by decide)
      | cons b bs => cases b <;> simp [blanks, Blank.text, Ends, isWord] <;> decide

theorem VarText.no_not {v : VarText} (h : ¬ ['n', 'o', 't'] <+: v.comp.name.toList) (rest : Chars) :
    lit "not".toList (v.text ++ rest) = none := by
  have e : v.text ++ rest = v.comp.text ++ (blanks v.before ++ ('.' :: (blanks v.after ++ (v.name.toList ++ rest)))) := by
    simp [VarText.text]
  rw [e]
  exact CompText.no_not h (after_blanks _ (after_dot _)).1

/-! ## Sums -/

theorem TermText.head {t : TermText} (h : t.Fine) : ∃ c cs, t.text = c :: cs ∧ isWord c = true := by
  cases t with
  | number n =>
    show ∃ c cs, Nat.toDigits 10 n = c :: cs ∧ _
    cases hd : Nat.toDigits 10 n with
    | nil => exact absurd hd Nat.toDigits_ne_nil
    | cons c cs => exact ⟨c, cs, rfl, isWord_of_digit (toDigits_isDigit n c (by rw [hd]; exact List.mem_cons_self ..))⟩
  | var v =>
    obtain ⟨c, cs, e1, e2⟩ := VarText.head h
    exact ⟨c, cs, e1, isWord_of_alpha e2⟩

theorem TermText.reads {t : TermText} (h : t.Fine) {rest : Chars} (hr : AfterOperand rest) :
    operandRule (t.text ++ rest) = some (.ok t.meaning, rest) := by
  cases t with
  | number n =>
    show operandRule (Nat.toDigits 10 n ++ rest) = _
    simp only [operandRule, digits_append hr.1, readInt_toDigits h]
    rfl
  | var v =>
    have h1 : digits (v.text ++ rest) = none := by
      obtain ⟨c, cs, e1, e2⟩ := VarText.head h
      rw [e1]; exact digits_word e2
    show operandRule (v.text ++ rest) = _
    simp only [operandRule, h1, VarText.reads h hr]
    rfl

theorem SumText.text_eq (s : SumText) : s.text = s.first.text ++ OpTree.writeTail TermText.text SumSign.text s.rest := by
  have : ∀ l : List (SumSign × TermText),
      (l.flatMap fun p => p.1.text ++ p.2.text) = OpTree.writeTail TermText.text SumSign.text l := by
    intro l
    induction l with
    | nil => rfl
    | cons p l ih => simp [OpTree.writeTail, ih]
  rw [SumText.text, this]

theorem SumText.val (s : SumText) :
    (s.rest.map fun p => (p.1.minus, (Except.ok p.2.meaning : Res Operand))).foldl
      (fun acc p => lift2 (diffOf p.1) acc p.2) (.ok s.first.meaning) = .ok s.meaning := by
  obtain ⟨a, l⟩ := s
  show _ = Except.ok (l.foldl _ a.meaning)
  have : ∀ (l : List (SumSign × TermText)) (e : Operand),
      (l.map fun p => (p.1.minus, (Except.ok p.2.meaning : Res Operand))).foldl
        (fun acc p => lift2 (diffOf p.1) acc p.2) (.ok e) =
      Except.ok (l.foldl (fun e p => if p.1.minus then .difference e p.2.meaning else .sum e p.2.meaning) e) := by
    intro l
    induction l with
    | nil => intro e; rfl
    | cons p l ih =>
      intro e
      rw [List.map_cons, List.foldl_cons, List.foldl_cons, ← ih]
      obtain ⟨⟨b, m, b'⟩, t⟩ := p
      cases m <;> rfl
  exact this l _

theorem sumSign_after {s : SumSign} (h : s.minus = true → s.before ≠ []) (rest : Chars) : AfterOperand (s.text ++ rest) := by
  obtain ⟨b, m, b'⟩ := s
  cases b with
  | nil =>
    cases m with
    | false => exact ⟨ends_cons (c := '+') (by decide), by simp [SumSign.text, blanks]⟩
    | true => exact absurd rfl (h rfl)
  | cons b bs =>
    constructor <;> cases b <;> simp [SumSign.text, blanks, Blank.text, Ends, isWord] <;> decide

theorem sumSign_reads (s : SumSign) {t : TermText} (ht : t.Fine) (rest : Chars) :
    ∃ r, diffOp (skip (s.text ++ (t.text ++ rest))) = some (s.minus, r) ∧ skip r = t.text ++ rest := by
  obtain ⟨b, m, b'⟩ := s
  obtain ⟨c, cs, e1, e2⟩ := TermText.head ht
  refine ⟨blanks b' ++ (t.text ++ rest), ?_, by rw [skip_blanks, e1]; exact skip_word e2⟩
  have e : (SumSign.mk b m b').text ++ (t.text ++ rest) =
      blanks b ++ ((if m then '-' else '+') :: (blanks b' ++ (t.text ++ rest))) := by
    simp [SumSign.text]
  rw [e, skip_blanks]
  cases m
  · rw [skip_cons (by decide)]; simp [diffOp, oneOf, lit]
  · rw [skip_cons (by decide)]; simp [diffOp, oneOf, lit]

theorem sumSign_ne (s : SumSign) : s.text ≠ [] := by
  obtain ⟨b, m, b'⟩ := s
  intro h
  simp [SumSign.text] at h

/-- Reading repeated operators and operands, where what follows may look like an operator but not like an operand. -/
theorem many_reads_signs' {τ α κ ω : Type} {op : Rule ω} {term : Rule α} {leafText : τ → Chars} {opText : κ → Chars}
    {sem : τ → α} {g : κ → ω} {Stop : Chars → Prop} (l : List (κ × τ))
    (hterm : ∀ p ∈ l, ∀ rest, Stop rest → term (leafText p.2 ++ rest) = some (sem p.2, rest))
    (hop : ∀ p ∈ l, ∀ rest, ∃ r, op (skip (opText p.1 ++ (leafText p.2 ++ rest))) = some (g p.1, r) ∧
      skip r = leafText p.2 ++ rest)
    (hstop : ∀ p ∈ l, ∀ rest, Stop (opText p.1 ++ rest))
    (rest : Chars) (hrest : Stop rest) (hend : ∀ o r, op (skip rest) = some (o, r) → term (skip r) = none) (n : Nat)
    (hn : l.length ≤ n) :
    many op term n (OpTree.writeTail leafText opText l ++ rest) = (l.map fun p => (g p.1, sem p.2), rest) := by
  induction l generalizing n with
  | nil =>
    cases n with
    | zero => rfl
    | succ n =>
      simp only [OpTree.writeTail, List.nil_append, many, List.map_nil]
      split
      · rfl
      · rename_i o r ho
        rw [hend o r ho]
  | cons p l ih =>
    cases n with
    | zero => simp at hn
    | succ n =>
      obtain ⟨r, h1, h2⟩ := hop p (List.mem_cons_self ..) (OpTree.writeTail leafText opText l ++ rest)
      have hs : Stop (OpTree.writeTail leafText opText l ++ rest) := by
        cases l with
        | nil => exact hrest
        | cons q l =>
          obtain ⟨o, a⟩ := q
          show Stop ((opText o ++ _) ++ rest)
          rw [List.append_assoc]
          exact hstop (o, a) (by simp) _
      have h3 := hterm p (List.mem_cons_self ..) _ hs
      have h4 := ih (fun q hq => hterm q (List.mem_cons_of_mem _ hq)) (fun q hq => hop q (List.mem_cons_of_mem _ hq))
        (fun q hq => hstop q (List.mem_cons_of_mem _ hq)) n (by simpa using hn)
      have e : OpTree.writeTail leafText opText (p :: l) ++ rest
          = opText p.1 ++ (leafText p.2 ++ (OpTree.writeTail leafText opText l ++ rest)) := by
        simp [OpTree.writeTail]
      rw [e]
      simp only [many, h1, h2, h3, h4, List.map_cons]

theorem SumText.reads {s : SumText} (h : s.Fine) {rest : Chars} (hr : AfterOperand rest)
    (hend : ∀ o r, diffOp (skip rest) = some (o, r) → operandRule (skip r) = none) :
    boolDiffRule (s.text ++ rest) = some (.ok s.meaning, rest) := by
  have hs : AfterOperand (OpTree.writeTail TermText.text SumSign.text s.rest ++ rest) := by
    cases hl : s.rest with
    | nil => exact hr
    | cons p l =>
      obtain ⟨o, a⟩ := p
      show AfterOperand ((o.text ++ _) ++ rest)
      rw [List.append_assoc]
      exact sumSign_after (h.2 (o, a) (by rw [hl]; exact List.mem_cons_self ..)).2 _
  have h3 := TermText.reads h.1 hs
  have hlen := writeTail_length (leafText := TermText.text) sumSign_ne s.rest
  have h4 := many_reads_signs' (op := diffOp) (term := operandRule) (leafText := TermText.text) (opText := SumSign.text)
    (sem := fun t => Except.ok t.meaning) (g := SumSign.minus) (Stop := AfterOperand) s.rest
    (fun p hp rest hr => TermText.reads (h.2 p hp).1 hr) (fun p hp rest => sumSign_reads p.1 (h.2 p hp).1 rest)
    (fun p hp rest => sumSign_after (h.2 p hp).2 rest) rest hr hend
    (OpTree.writeTail TermText.text SumSign.text s.rest ++ rest).length (by simp only [List.length_append]; omega)
  rw [s.text_eq, List.append_assoc]
  have h5 : many (oneOf [(['-'], true), (['+'], false)]) operandRule
      (OpTree.writeTail TermText.text SumSign.text s.rest ++ rest).length
      (OpTree.writeTail TermText.text SumSign.text s.rest ++ rest) = _ := h4
  simp only [boolDiffRule, h3, Option.bind_eq_bind, Option.bind_some, h5, s.val]

theorem SumText.head {s : SumText} (h : s.Fine) : ∃ c cs, s.text = c :: cs ∧ isWord c = true := by
  obtain ⟨c, cs, h1, h2⟩ := TermText.head h.1
  exact ⟨c, _, by rw [s.text_eq, h1]; rfl, h2⟩

theorem SumText.no_not {s : SumText} (h : s.NotNot) (rest : Chars) : lit "not".toList (s.text ++ rest) = none := by
  obtain ⟨t, l⟩ := s
  rw [SumText.text_eq, List.append_assoc]
  cases t with
  | number n =>
    show lit "not".toList (Nat.toDigits 10 n ++ _) = none
    cases hd : Nat.toDigits 10 n with
    | nil => exact absurd hd Nat.toDigits_ne_nil
    | cons c cs =>
      have := toDigits_isDigit n c (by rw [hd]; exact List.mem_cons_self ..)
      have hne : 'n' ≠ c := by rintro rfl; exact absurd this (by decide)
      simp [lit, hne]
  | var v => exact VarText.no_not h _

/-! ## Parts of states -/

/-- What may follow a part of a state -/
structure AfterPart (rest : Chars) : Prop where
  name : AfterName rest
  diff : ∀ o r, diffOp (skip rest) = some (o, r) → operandRule (skip r) = none
  cmp : cmpOp (skip rest) = none
  or : orOp (skip rest) = none
  dot : (skip rest).head? ≠ some '.'

theorem AfterPart.operand {rest : Chars} (h : AfterPart rest) : AfterOperand rest := ⟨h.name.1, h.name.2.1⟩

theorem sign_not_diff {o : Cmp} {b : List Blank} (rest : Chars) :
    diffOp (skip (blanks b ++ (o.sign ++ rest))) = none := by
  rw [skip_blanks]
  cases o <;> simp only [Cmp.sign, List.cons_append] <;> rw [skip_cons (by decide)] <;> simp [diffOp, oneOf, lit]

theorem compare_reads {l r : SumText} (hl : l.Fine) (hr : r.Fine) (b : List Blank) (o : Cmp) (b' : List Blank)
    {rest : Chars} (h : AfterPart rest) :
    compExprRule (l.text ++ (blanks b ++ (o.sign ++ (blanks b' ++ (r.text ++ rest))))) =
      some (.compExpr o (.ok l.meaning) (.ok r.meaning), rest) := by
  obtain ⟨c, cs, hc, hw⟩ := SumText.head hr
  have hs : skip (blanks b' ++ (r.text ++ rest)) = r.text ++ rest := by rw [skip_blanks, hc]; exact skip_word hw
  have h1 := SumText.reads hl (rest := blanks b ++ (o.sign ++ (blanks b' ++ (r.text ++ rest))))
    (by
      have : AfterName (blanks b ++ (o.sign ++ (blanks b' ++ (r.text ++ rest)))) := by
        refine after_blanks b ?_
        cases o <;> exact ⟨ends_cons (by decide), by simp [Cmp.sign], by
          simp only [Cmp.sign, List.cons_append]; rw [skip_cons (by decide)]; simp⟩
      exact ⟨this.1, this.2.1⟩)
    (by intro o' r' ho; rw [sign_not_diff] at ho; cases ho)
  have hhead : (blanks b' ++ (r.text ++ rest)).head? ≠ some '=' := by
    cases b' with
    | nil =>
      show (r.text ++ rest).head? ≠ _
      rw [hc]
      intro h
      cases h
      exact absurd hw (by decide)
    | cons d ds => cases d <;> simp [blanks, Blank.text]
  have h2 : cmpOp (skip (blanks b ++ (o.sign ++ (blanks b' ++ (r.text ++ rest))))) =
      some (o, blanks b' ++ (r.text ++ rest)) := by
    rw [skip_blanks]
    generalize blanks b' ++ (r.text ++ rest) = u at hhead
    have hu : lit ['='] u = none := lit_head hhead
    have hu' : ∀ v, u ≠ '=' :: v := by rintro v rfl; exact hhead rfl
    cases o <;> simp only [Cmp.sign, List.cons_append, List.nil_append] <;> rw [skip_cons (by decide)] <;>
      simp [cmpOp, oneOf, lit, hu]
  have h4 := SumText.reads hr h.operand h.diff
  simp only [compExprRule, h1, Option.bind_eq_bind, Option.bind_some, h2, hs, h4]

theorem compare_sub (n : Nat) {l r : SumText} (hl : l.Fine) (hn : l.NotNot) (hr : r.Fine) (b : List Blank) (o : Cmp)
    (b' : List Blank) {rest : Chars} (h : AfterPart rest) :
    subRule n ((StateText.compare l b o b' r).text ++ rest) = some (.compExpr o (.ok l.meaning) (.ok r.meaning), rest) := by
  have e : (StateText.compare l b o b' r).text ++ rest =
      l.text ++ (blanks b ++ (o.sign ++ (blanks b' ++ (r.text ++ rest)))) := by
    simp [StateText.text]
  obtain ⟨c, cs, hc, hw⟩ := SumText.head hl
  have h1 := compare_reads hl hr b o b' h
  have h2 := SumText.no_not hn (blanks b ++ (o.sign ++ (blanks b' ++ (r.text ++ rest))))
  rw [e]
  rw [hc] at h1 h2 ⊢
  rw [List.cons_append] at h1 h2 ⊢
  rw [sub_leaf hw h2, orElse, h1]

theorem locationText_sub (n : Nat) {v : VarText} (hv : v.meaning.Writable) (hn : ¬ ['n', 'o', 't'] <+: v.comp.name.toList)
    {rest : Chars} (h : AfterPart rest) : subRule n (v.text ++ rest) = some (.locExpr v.meaning, rest) := by
  obtain ⟨c, cs, hc, hw⟩ := VarText.head hv
  have h1 := SumText.reads (s := ⟨.var v, []⟩) ⟨hv, by simp⟩ h.operand h.diff
  have h2 : compExprRule (v.text ++ rest) = none := by
    have h1' : boolDiffRule (v.text ++ rest) = some (.ok (.clock v.meaning), rest) := by
      have := h1
      rw [SumText.text_eq] at this
      simpa [OpTree.writeTail, TermText.text, SumText.meaning, TermText.meaning] using this
    simp only [compExprRule, h1', Option.bind_eq_bind, Option.bind_some, h.cmp, Option.bind_none]
  have h3 : locExprRule (v.text ++ rest) = some (.locExpr v.meaning, rest) := by
    simp only [locExprRule, VarText.reads hv h.operand, Option.bind_eq_bind, Option.bind_some]
  have h4 := VarText.no_not hn rest
  rw [hc] at h2 h3 h4 ⊢
  rw [List.cons_append] at h2 h3 h4 ⊢
  rw [sub_leaf (isWord_of_alpha hw) h4, orElse, h2]
  simp only [orElse, h3]

theorem truth_sub (n : Nat) (b : Bool) {rest : Chars} (h : AfterPart rest) :
    subRule n ((StateText.truth b).text ++ rest) = some (.bool b, rest) := by
  have key : ∀ w : String, IsName w → compExprRule (w.toList ++ rest) = none ∧ locExprRule (w.toList ++ rest) = none := by
    intro w hw
    constructor
    · simp only [compExprRule, boolDiff_none hw h.name h.dot, Option.bind_eq_bind, Option.bind_none]
    · simp only [locExprRule, variable_none hw h.name h.dot, Option.bind_eq_bind, Option.bind_none]
  cases b with
  | true =>
    obtain ⟨h1, h2⟩ := key "true" (isName_of rfl (by decide))
    have h3 := sub_leaf (n := n) (c := 't') (cs := 'r' :: 'u' :: 'e' :: rest) (by decide) rfl
    show subRule n ('t' :: 'r' :: 'u' :: 'e' :: rest) = _
    rw [h3]
    have h1' : compExprRule ('t' :: 'r' :: 'u' :: 'e' :: rest) = none := h1
    have h2' : locExprRule ('t' :: 'r' :: 'u' :: 'e' :: rest) = none := h2
    simp only [orElse, h1', h2']
    rfl
  | false =>
    obtain ⟨h1, h2⟩ := key "false" (isName_of rfl (by decide))
    have h3 := sub_leaf (n := n) (c := 'f') (cs := 'a' :: 'l' :: 's' :: 'e' :: rest) (by decide) rfl
    show subRule n ('f' :: 'a' :: 'l' :: 's' :: 'e' :: rest) = _
    rw [h3]
    have h1' : compExprRule ('f' :: 'a' :: 'l' :: 's' :: 'e' :: rest) = none := h1
    have h2' : locExprRule ('f' :: 'a' :: 'l' :: 's' :: 'e' :: rest) = none := h2
    simp only [orElse, h1', h2']
    rfl

/-! ## Conjunctions -/

/-- A conjunction sign with the blanks around it -/
abbrev SpacedAnd := List Blank × AndSign × List Blank

/-- The text of it -/
def spacedAndText (k : SpacedAnd) : Chars := blanks k.1 ++ (k.2.1.text ++ blanks k.2.2)

namespace StateText

/-- The parts outside parentheses -/
def tree : StateText → OpTree StateText SpacedAnd
  | and l b s b' r => .node l.tree (b, s, b') r.tree
  | w => .leaf w

/-- Not a conjunction -/
def IsPart : StateText → Prop
  | and _ _ _ _ _ => False
  | _ => True

theorem tree_write (w : StateText) : w.tree.write text spacedAndText = w.text := by
  induction w with
  | and l b o b' r ihl ihr => simp [tree, OpTree.write, ihl, ihr, spacedAndText, text]
  | _ => rfl

/-- How deeply parentheses are nested -/
def depth : StateText → Nat
  | parens _ w _ => w.depth + 1
  | and l _ _ _ r => max l.depth r.depth
  | _ => 0

theorem depth_text (w : StateText) : w.depth ≤ w.text.length := by
  induction w with
  | parens b w b' ih => simp only [depth, text, List.length_cons, List.length_append]; omega
  | and l b o b' r ihl ihr => simp only [depth, text, List.length_append]; omega
  | _ => exact Nat.zero_le _

/-- The parts, from left to right -/
def parts (w : StateText) : List StateText := w.tree.first :: w.tree.tail.map (·.2)

theorem parts_and (l : StateText) (b : List Blank) (s : AndSign) (b' : List Blank) (r : StateText) :
    (and l b s b' r).parts = l.parts ++ r.parts := by
  simp [parts, tree, OpTree.first, OpTree.tail]

theorem conjuncts_parts (w : StateText) : w.conjuncts = w.parts.map meaning := by
  induction w with
  | and l b o b' r ihl ihr => rw [parts_and, List.map_append, ← ihl, ← ihr]; rfl
  | compare l b o b' r => rfl
  | location v => rfl
  | truth b => rfl
  | parens b w b' => rfl

theorem parts_fine {w : StateText} (h : w.Fine) : ∀ a ∈ w.parts, a.Fine ∧ a.depth ≤ w.depth ∧ a.IsPart := by
  have self : ∀ w : StateText, w.Fine → w.IsPart → w.parts = [w] → ∀ a ∈ w.parts, a.Fine ∧ a.depth ≤ w.depth ∧ a.IsPart := by
    intro w h1 h2 h3 a ha
    rw [h3, List.mem_singleton] at ha
    subst ha
    exact ⟨h1, Nat.le_refl _, h2⟩
  induction w with
  | and l b o b' r ihl ihr =>
    intro a ha
    rw [parts_and] at ha
    rcases List.mem_append.1 ha with ha | ha
    · obtain ⟨h1, h2, h3⟩ := ihl h.1 a ha
      exact ⟨h1, by simp only [depth]; omega, h3⟩
    · obtain ⟨h1, h2, h3⟩ := ihr h.2.1 a ha
      exact ⟨h1, by simp only [depth]; omega, h3⟩
  | compare l b o b' r => exact self _ h trivial rfl
  | location v => exact self _ h trivial rfl
  | truth b => exact self _ h trivial rfl
  | parens b w b' => exact self _ h trivial rfl

theorem signs_fine {w : StateText} (h : w.Fine) : ∀ p ∈ w.tree.tail, p.1.2.1 = .word → p.1.1 ≠ [] := by
  induction w with
  | and l b o b' r ihl ihr =>
    intro p hp
    rcases List.mem_append.1 (show p ∈ l.tree.tail ++ (_ :: r.tree.tail) from hp) with hp | hp
    · exact ihl h.1 p hp
    · rcases List.mem_cons.1 hp with rfl | hp
      · exact h.2.2
      · exact ihr h.2.1 p hp
  | _ => intro p hp; cases hp

/-- The text begins with a letter, a digit or a parenthesis. -/
theorem head {w : StateText} (h : w.Fine) : ∃ c cs, w.text = c :: cs ∧ (isWord c = true ∨ c = '(') := by
  induction w with
  | compare l b o b' r =>
    obtain ⟨c, cs, h1, h2⟩ := SumText.head h.1
    exact ⟨c, _, by simp only [text, h1]; rfl, .inl h2⟩
  | location v =>
    obtain ⟨c, cs, h1, h2⟩ := VarText.head h.1
    exact ⟨c, cs, h1, .inl (isWord_of_alpha h2)⟩
  | truth b =>
    cases b
    · exact ⟨'f', _, rfl, .inl (by decide)⟩
    · exact ⟨'t', _, rfl, .inl (by decide)⟩
  | parens b w b' => exact ⟨'(', _, rfl, .inr rfl⟩
  | and l b s b' r ihl ihr =>
    obtain ⟨c, cs, h1, h2⟩ := ihl h.1
    exact ⟨c, _, by simp only [text, h1]; rfl, h2⟩

theorem skip_text {w : StateText} (h : w.Fine) (rest : Chars) : skip (w.text ++ rest) = w.text ++ rest := by
  obtain ⟨c, cs, h1, h2⟩ := head h
  rw [h1]
  rcases h2 with h2 | rfl
  · exact skip_word h2
  · exact skip_cons (by decide)

end StateText

theorem after_part_blanks (b : List Blank) {cs : Chars} (h : AfterPart cs) : AfterPart (blanks b ++ cs) :=
  ⟨after_blanks b h.name, by rw [skip_blanks]; exact h.diff, by rw [skip_blanks]; exact h.cmp,
    by rw [skip_blanks]; exact h.or, by rw [skip_blanks]; exact h.dot⟩

theorem andSign_after {k : SpacedAnd} (h : k.2.1 = .word → k.1 ≠ []) (rest : Chars) : AfterPart (spacedAndText k ++ rest) := by
  obtain ⟨b, s, b'⟩ := k
  have e : spacedAndText (b, s, b') ++ rest = blanks b ++ (s.text ++ (blanks b' ++ rest)) := by simp [spacedAndText]
  rw [e]
  cases s with
  | amps =>
    refine after_part_blanks b ⟨⟨ends_cons (by decide), by simp [AndSign.text], ?_⟩, ?_, ?_, ?_, ?_⟩ <;>
      simp only [AndSign.text, List.cons_append] <;> rw [skip_cons (by decide)]
    · simp
    · intro o r h; simp [diffOp, oneOf, lit] at h
    · simp [cmpOp, oneOf, lit]
    · simp [orOp, oneOf, lit]
    · simp
  | word =>
    cases b with
    | nil => exact absurd rfl (h rfl)
    | cons d ds =>
      have hs : skip (blanks (d :: ds) ++ (AndSign.word.text ++ (blanks b' ++ rest))) =
          'a' :: 'n' :: 'd' :: (blanks b' ++ rest) := by
        rw [skip_blanks]; exact skip_cons (c := 'a') (by decide)
      refine ⟨after_blank d ds ?_, ?_, ?_, ?_, ?_⟩
      · rw [show skip (AndSign.word.text ++ (blanks b' ++ rest)) = _ from skip_cons (c := 'a') (by decide)]; simp
      all_goals rw [hs]
      · intro o r h; simp [diffOp, oneOf, lit] at h
      · simp [cmpOp, oneOf, lit]
      · simp [orOp, oneOf, lit]
      · simp

theorem andSign_reads (k : SpacedAnd) {a : StateText} (h : a.Fine) (rest : Chars) :
    ∃ r, andOp (skip (spacedAndText k ++ (a.text ++ rest))) = some ((), r) ∧ skip r = a.text ++ rest := by
  obtain ⟨b, s, b'⟩ := k
  have e : spacedAndText (b, s, b') ++ (a.text ++ rest) = blanks b ++ (s.text ++ (blanks b' ++ (a.text ++ rest))) := by
    simp [spacedAndText]
  refine ⟨blanks b' ++ (a.text ++ rest), ?_, by rw [skip_blanks, StateText.skip_text h]⟩
  rw [e, skip_blanks]
  cases s <;>
    simp only [AndSign.text, List.cons_append, List.nil_append] <;> rw [skip_cons (by decide)] <;>
    simp [andOp, oneOf, lit]

theorem orRule_reads {n : Nat} {a : StateText} {p : SPair}
    (h : ∀ rest, AfterPart rest → subRule n (a.text ++ rest) = some (p, rest)) {rest : Chars} (hr : AfterPart rest) :
    orRule n (a.text ++ rest) = some (.orExpr [p], rest) := by
  have h1 : many orOp (subRule n) rest.length rest = ([], rest) := by
    cases hl : rest.length with
    | zero => rfl
    | succ k => simp only [many, hr.or]
  simp only [orRule, listRule, h rest hr, Option.bind_eq_bind, Option.bind_some, h1, List.map_nil]

theorem conj_reads {n : Nat} {w : StateText} {f : StateText → SPair} (hw : w.Fine)
    (h : ∀ a ∈ w.parts, ∀ rest, AfterPart rest → subRule n (a.text ++ rest) = some (f a, rest)) {rest : Chars}
    (hr : AfterPart rest) (hand : andOp (skip rest) = none) :
    boolStateRule (n + 1) (w.text ++ rest) = some (.andExpr (w.parts.map fun a => .orExpr [f a]), rest) := by
  have hmem : ∀ p ∈ w.tree.tail, p.2 ∈ w.parts := fun p hp => List.mem_cons_of_mem _ (List.mem_map_of_mem hp)
  have hs : AfterPart (OpTree.writeTail StateText.text spacedAndText w.tree.tail ++ rest) := by
    cases hl : w.tree.tail with
    | nil => exact hr
    | cons p l =>
      obtain ⟨o, a⟩ := p
      show AfterPart ((spacedAndText o ++ _) ++ rest)
      rw [List.append_assoc]
      exact andSign_after (StateText.signs_fine hw (o, a) (by rw [hl]; exact List.mem_cons_self ..)) _
  have h1 := orRule_reads (h w.tree.first (List.mem_cons_self ..)) hs
  have hlen := writeTail_length (leafText := StateText.text) (opText := spacedAndText)
    (by rintro ⟨b, s, b'⟩ h; cases s <;> simp [spacedAndText, AndSign.text] at h) w.tree.tail
  have h2 := many_reads_signs (op := andOp) (term := orRule n) (leafText := StateText.text) (opText := spacedAndText)
    (sem := fun a => SPair.orExpr [f a]) (g := fun _ => ()) (Stop := AfterPart) w.tree.tail
    (fun p hp rest hr => orRule_reads (h p.2 (hmem p hp)) hr)
    (fun p hp rest => andSign_reads p.1 (StateText.parts_fine hw p.2 (hmem p hp)).1 rest)
    (fun p hp rest => andSign_after (StateText.signs_fine hw p hp) rest) rest hr hand
    (OpTree.writeTail StateText.text spacedAndText w.tree.tail ++ rest).length (by simp only [List.length_append]; omega)
  rw [← w.tree_write, OpTree.write_eq, List.append_assoc, boolStateRule_succ]
  simp only [listRule, h1, Option.bind_eq_bind, Option.bind_some, h2, StateText.parts, List.map_map, Function.comp_def,
    List.map_cons]

theorem parseAll_parts {f : StateText → SPair} {l : List StateText} (h : ∀ a ∈ l, (f a).primary = .ok a.meaning) :
    SPair.parseAll (l.map fun a => .orExpr [f a]) = .ok (l.map StateText.meaning) := by
  induction l with
  | nil => simp [SPair.parseAll]
  | cons e es ih =>
    rw [List.map_cons, SPair.parseAll, parse_or, h e (List.mem_cons_self ..),
      ih fun a ha => h a (List.mem_cons_of_mem _ ha)]
    rfl

theorem primary_parts {f : StateText → SPair} {w : StateText} (h : ∀ a ∈ w.parts, (f a).primary = .ok a.meaning) :
    (SPair.andExpr (w.parts.map fun a => .orExpr [f a])).primary = .ok w.meaning := by
  rw [StateText.meaning, StateText.conjuncts_parts]
  generalize hl : w.parts = l at h ⊢
  match l, hl, h with
  | [], hl, _ => simp [StateText.parts] at hl
  | [a], _, h => rw [List.map_cons, List.map_nil, SPair.primary, SPair.primaryList, parse_or, h a (by simp)]; rfl
  | a :: b :: es, _, h =>
    have h2 := parseAll_parts (fun e he => h e (List.mem_cons_of_mem _ he))
    rw [List.map_cons] at h2
    rw [SPair.primary, List.map_cons, List.map_cons, SPair.primaryList, parse_or, h a (List.mem_cons_self ..), h2]
    rfl

/-- Every part of a written state is read as a pair that is turned into the state that is meant. -/
theorem StateText.part_reads (n : Nat) {w : StateText} (h : w.Fine) (hp : w.IsPart) (hn : w.depth ≤ n) :
    ∃ p : SPair, (∀ rest, AfterPart rest → subRule n (w.text ++ rest) = some (p, rest)) ∧ p.primary = .ok w.meaning := by
  induction n generalizing w with
  | zero =>
    match w, h, hp, hn with
    | compare l b o b' r, h, _, _ => exact ⟨_, fun rest hr => compare_sub _ h.1 h.2.1 h.2.2 b o b' hr, by rw [SPair.primary]; rfl⟩
    | location v, h, _, _ => exact ⟨_, fun rest hr => locationText_sub _ h.1 h.2 hr, by rw [SPair.primary]; rfl⟩
    | truth b, _, _, _ => exact ⟨_, fun rest hr => truth_sub _ b hr, by rw [SPair.primary]; rfl⟩
    | parens b w b', _, _, hn => simp [depth] at hn
  | succ n ih =>
    match w, h, hp, hn with
    | compare l b o b' r, h, _, _ => exact ⟨_, fun rest hr => compare_sub _ h.1 h.2.1 h.2.2 b o b' hr, by rw [SPair.primary]; rfl⟩
    | location v, h, _, _ => exact ⟨_, fun rest hr => locationText_sub _ h.1 h.2 hr, by rw [SPair.primary]; rfl⟩
    | truth b, _, _, _ => exact ⟨_, fun rest hr => truth_sub _ b hr, by rw [SPair.primary]; rfl⟩
    | parens b w b', h, _, hn =>
      have hn' : w.depth ≤ n := by simpa [depth] using hn
      have hw : w.Fine := h
      have h1 : ∀ a, ∃ p : SPair, a ∈ w.parts →
          (∀ rest, AfterPart rest → subRule n (a.text ++ rest) = some (p, rest)) ∧ p.primary = .ok a.meaning := by
        intro a
        by_cases ha : a ∈ w.parts
        · obtain ⟨h2, h3, h4⟩ := parts_fine hw a ha
          obtain ⟨p, hp⟩ := ih h2 h4 (h3.trans hn')
          exact ⟨p, fun _ => hp⟩
        · exact ⟨.bool true, fun h => absurd h ha⟩
      choose f hf using h1
      refine ⟨.andExpr (w.parts.map fun a => .orExpr [f a]), ?_, ?_⟩
      · intro rest hr
        have hsk : skip (blanks b' ++ ')' :: rest) = ')' :: rest := by rw [skip_blanks]; exact skip_close rest
        have hclose : AfterPart (blanks b' ++ ')' :: rest) := by
          refine after_part_blanks b' ⟨after_close rest, ?_, ?_, ?_, ?_⟩ <;> rw [skip_close]
          · intro o r h; simp [diffOp, oneOf, lit] at h
          · rfl
          · rfl
          · simp
        have h2 := conj_reads hw (fun a ha => (hf a ha).1) hclose (by rw [hsk]; rfl)
        have e : (parens b w b').text ++ rest = '(' :: (blanks b ++ (w.text ++ (blanks b' ++ ')' :: rest))) := by
          simp [text]
        have h3 : skip (blanks b ++ (w.text ++ (blanks b' ++ ')' :: rest))) = w.text ++ (blanks b' ++ ')' :: rest) := by
          rw [skip_blanks, skip_text hw]
        have h4 : Reveaal.parens (boolStateRule (n + 1)) ('(' :: (blanks b ++ (w.text ++ (blanks b' ++ ')' :: rest)))) =
            some (.andExpr (w.parts.map fun a => .orExpr [f a]), rest) := by
          simp [Reveaal.parens, lit, h3, h2, hsk]
        rw [e]
        simp only [subRule, orElse, h4]
      · exact primary_parts fun a ha => (hf a ha).2

/-- A written state is read as the state that is meant, up to any text that cannot continue it. -/
theorem StateText.reads {w : StateText} (h : w.Fine) {rest : Chars} (hr : AfterPart rest)
    (hand : andOp (skip rest) = none) : stateRule (w.text ++ rest) = some (.ok w.meaning, rest) := by
  have h1 : ∀ a, ∃ p : SPair, a ∈ w.parts →
      (∀ rest', AfterPart rest' → subRule (w.text ++ rest).length (a.text ++ rest') = some (p, rest')) ∧
        p.primary = .ok a.meaning := by
    intro a
    by_cases ha : a ∈ w.parts
    · obtain ⟨h2, h3, h4⟩ := parts_fine h a ha
      have := w.depth_text
      obtain ⟨p, hp⟩ := part_reads (w.text ++ rest).length h2 h4 (by simp only [List.length_append]; omega)
      exact ⟨p, fun _ => hp⟩
    · exact ⟨.bool true, fun h => absurd h ha⟩
  choose f hf using h1
  have h3 := conj_reads h (fun a ha => (hf a ha).1) hr hand
  simp only [stateRule, h3, Option.bind_eq_bind, Option.bind_some, primary_parts fun a ha => (hf a ha).2]

end Reveaal
