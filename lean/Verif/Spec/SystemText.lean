import Verif.Spec.StateText

/-!
# Systems and queries as users write them

Component names with or without ids, parentheses wherever the user puts them, the operators `&&`, `||` and `\\` (or `//`), and any blanks
and line breaks between them.
-/

namespace Reveaal

/-- An operator as it is written; there are two signs for the quotient. -/
inductive OpSign where
  | conjunction | composition | quotient | slashes

/-- The characters of it -/
def OpSign.text : OpSign → List Char
  | .conjunction => ['&', '&']
  | .composition => ['|', '|']
  | .quotient => ['\\', '\\']
  | .slashes => ['/', '/']

/-- Conjunction binds most tightly, then composition, then quotient. -/
def OpSign.strength : OpSign → Nat
  | .conjunction => 3
  | .composition => 2
  | .quotient | .slashes => 1

/-- What the operator stands for -/
def OpSign.apply : OpSign → SysExpr → SysExpr → SysExpr
  | .conjunction => .conjunction
  | .composition => .composition
  | .quotient | .slashes => .quotient

/-- A system as a user writes it.  The two lists of blanks are those after `(` and before `)`, those before and after
the operator, and those before and after the bracket `[`.  (Blanks before `]` belong to the id.) -/
inductive SysText where
  | component (name : String) (id : Option String)
  | spaced (name : String) (b b' : List Blank) (id : String)
  | parens (b : List Blank) (w : SysText) (b' : List Blank)
  | op (l : SysText) (b : List Blank) (o : OpSign) (b' : List Blank) (r : SysText)

namespace SysText

/-- The text -/
def text : SysText → List Char
  | component name none => name.toList
  | component name (some id) => name.toList ++ '[' :: (id.toList ++ [']'])
  | spaced name b b' id => name.toList ++ (blanks b ++ ('[' :: (blanks b' ++ (id.toList ++ [']']))))
  | parens b w b' => '(' :: (blanks b ++ (w.text ++ (blanks b' ++ [')'])))
  | op l b o b' r => l.text ++ (blanks b ++ (o.text ++ (blanks b' ++ r.text)))

/-- The system that is meant -/
def meaning : SysText → SysExpr
  | component name id => .component name id
  | spaced name _ _ id => .component name (some id)
  | parens _ w _ => w.meaning
  | op l _ o _ r => o.apply l.meaning r.meaning

/-- Where there are no parentheses, operators that bind more tightly are applied first, and equal ones from left to right:
an operand of an operator has no weaker operator at its top, and the right one none of the same strength either.  Only
operators of strength `p` or more may be at the top. -/
def Grouped : Nat → SysText → Prop
  | _, component _ _ | _, spaced _ _ _ _ => True
  | _, parens _ w _ => w.Grouped 0
  | p, op l _ o _ r => p ≤ o.strength ∧ l.Grouped o.strength ∧ r.Grouped (o.strength + 1)

end SysText

/-- A query about one system -/
inductive OneSys where
  | consistency | implementation | determinism | specification

/-- Its keyword -/
def OneSys.keyword : OneSys → String
  | .consistency => "consistency:"
  | .implementation => "implementation:"
  | .determinism => "determinism:"
  | .specification => "specification:"

/-- The query -/
def OneSys.query : OneSys → SysExpr → QueryExpr
  | .consistency => .consistency
  | .implementation => .implementation
  | .determinism => .determinism
  | .specification => .specification

/-- A query that makes a component -/
inductive MakeComp where
  | getComponent | prune | bisimMinim

/-- Its keyword -/
def MakeComp.keyword : MakeComp → String
  | .getComponent => "get-component:"
  | .prune => "prune:"
  | .bisimMinim => "bisim-minim:"

/-- The query -/
def MakeComp.query : MakeComp → SaveExpr → QueryExpr
  | .getComponent => .getComponent
  | .prune => .prune
  | .bisimMinim => .bisimMinim

/-- A query as a user writes it: refinement, or one about one system, or reachability (where no start means `init`), or one
that makes a component, with or without a name to save it under. -/
inductive QueryWritten where
  | refinement (b : List Blank) (l : SysText) (b₁ b₂ : List Blank) (r : SysText)
  | about (k : OneSys) (b : List Blank) (w : SysText)
  | reachability (b : List Blank) (w : SysText) (b₁ b₂ : List Blank) (start : Option StateText) (c : Blank)
    (b₃ b₄ : List Blank) (goal : StateText)
  | make (k : MakeComp) (b : List Blank) (w : SysText)
  | makeAs (k : MakeComp) (b : List Blank) (w : SysText) (c : Blank) (b₁ b₂ : List Blank) (name : String)

/-- The start of a reachability query -/
def startWritten : Option StateText → List Char
  | some w => w.text
  | none => "init".toList

namespace QueryWritten

/-- The text.  There is at least one blank before `save-as` and before `->`. -/
def text : QueryWritten → List Char
  | refinement b l b₁ b₂ r =>
    "refinement:".toList ++ (blanks b ++ (l.text ++ (blanks b₁ ++ ('<' :: '=' :: (blanks b₂ ++ r.text)))))
  | about k b w => k.keyword.toList ++ (blanks b ++ w.text)
  | reachability b w b₁ b₂ start c b₃ b₄ goal =>
    "reachability:".toList ++ (blanks b ++ (w.text ++ (blanks b₁ ++ ('@' :: (blanks b₂ ++ (startWritten start ++
      (blanks (c :: b₃) ++ ('-' :: '>' :: (blanks b₄ ++ goal.text)))))))))
  | make k b w => k.keyword.toList ++ (blanks b ++ w.text)
  | makeAs k b w c b₁ b₂ name =>
    k.keyword.toList ++ (blanks b ++ (w.text ++ (blanks (c :: b₁) ++ ("save-as".toList ++ (blanks b₂ ++ name.toList)))))

/-- The query that is meant -/
def meaning : QueryWritten → QueryExpr
  | refinement _ l _ _ r => .refinement l.meaning r.meaning
  | about k _ w => k.query w.meaning
  | reachability _ w _ _ start _ _ _ goal => .reachability w.meaning (start.map StateText.meaning) goal.meaning
  | make k _ w => k.query ⟨w.meaning, none⟩
  | makeAs k _ w _ _ _ name => k.query ⟨w.meaning, some name⟩

/-- The systems are grouped as they are read, and the names can be written. -/
def Fine : QueryWritten → Prop
  | refinement _ l _ _ r => (l.Grouped 0 ∧ l.meaning.Writable) ∧ r.Grouped 0 ∧ r.meaning.Writable
  | about _ _ w | make _ _ w => w.Grouped 0 ∧ w.meaning.Writable
  | reachability _ w _ _ start _ _ _ goal =>
    (w.Grouped 0 ∧ w.meaning.Writable) ∧ (∀ s ∈ start, s.Fine) ∧ goal.Fine
  | makeAs _ _ w _ _ _ name => (w.Grouped 0 ∧ w.meaning.Writable) ∧ IsName name

/-- Further queries of a list, each after a semicolon with blanks around it -/
def textRest : List (List Blank × List Blank × QueryWritten) → List Char
  | [] => []
  | (b, b', q) :: qs => blanks b ++ (';' :: (blanks b' ++ (q.text ++ textRest qs)))

end QueryWritten

end Reveaal
