import Verif.Spec.QueryText

/-!
# Blanks, and the states of reachability queries as users write them

A state is written as comparisons of sums, locations and truth values, with parentheses wherever the user puts them, `&&`
or `and` between the parts, and any blanks and line breaks.
-/

namespace Reveaal

/-- A blank or line break -/
inductive Blank where
  | space | tab | newline | crlf

/-- The characters of it -/
def Blank.text : Blank → List Char
  | .space => [' ']
  | .tab => ['\t']
  | .newline => ['\n']
  | .crlf => ['\r', '\n']

/-- Any number of blanks and line breaks -/
def blanks (bs : List Blank) : List Char := bs.flatMap Blank.text

/-- The name of a component, with an id in brackets or without; there may be blanks before and after the first bracket. -/
structure CompText where
  name : String
  id : Option (List Blank × List Blank × String)

namespace CompText

/-- The text -/
def text (c : CompText) : List Char :=
  match c.id with
  | none => c.name.toList
  | some (b, b', id) => c.name.toList ++ (blanks b ++ ('[' :: (blanks b' ++ (id.toList ++ [']']))))

/-- The component that is meant -/
def meaning (c : CompText) : SysExpr := .component c.name (c.id.map fun i => i.2.2)

end CompText

/-- A clock or a location of a component: `A.x`, `A[1] . x` -/
structure VarText where
  comp : CompText
  before : List Blank
  after : List Blank
  name : String

namespace VarText

/-- The text -/
def text (v : VarText) : List Char :=
  v.comp.text ++ (blanks v.before ++ ('.' :: (blanks v.after ++ v.name.toList)))

/-- What is meant -/
def meaning (v : VarText) : CompVar := ⟨v.comp.name, v.comp.id.map fun i => i.2.2, v.name⟩

end VarText

/-- A number or a variable -/
inductive TermText where
  | number (n : Nat)
  | var (v : VarText)

namespace TermText

/-- The text; numbers are written without leading zeros. -/
def text : TermText → List Char
  | number n => Nat.toDigits 10 n
  | var v => v.text

/-- What is meant -/
def meaning : TermText → Operand
  | number n => .number n
  | var v => .clock v.meaning

/-- The names can be written, and the number fits into 32 bits. -/
def Fine : TermText → Prop
  | number n => n ≤ 2147483647
  | var v => v.meaning.Writable

end TermText

/-- A plus or minus sign with the blanks around it -/
structure SumSign where
  before : List Blank
  minus : Bool
  after : List Blank

/-- The text -/
def SumSign.text (s : SumSign) : List Char :=
  blanks s.before ++ ((if s.minus then '-' else '+') :: blanks s.after)

/-- A sum: its first term, and the others with their signs -/
structure SumText where
  first : TermText
  rest : List (SumSign × TermText)

namespace SumText

/-- The text -/
def text (s : SumText) : List Char := s.first.text ++ s.rest.flatMap fun p => p.1.text ++ p.2.text

/-- The sum that is meant: sums and differences are taken from left to right. -/
def meaning (s : SumText) : Operand :=
  s.rest.foldl (fun e p => if p.1.minus then .difference e p.2.meaning else .sum e p.2.meaning) s.first.meaning

/-- The terms can be written, and there is a blank before every minus sign. -/
def Fine (s : SumText) : Prop :=
  s.first.Fine ∧ ∀ p ∈ s.rest, p.2.Fine ∧ (p.1.minus = true → p.1.before ≠ [])

/-- The sum does not begin with a component whose name begins with `not`. -/
def NotNot (s : SumText) : Prop :=
  match s.first with
  | .number _ => True
  | .var v => ¬ ['n', 'o', 't'] <+: v.comp.name.toList

end SumText

/-- The signs of comparisons -/
def Cmp.sign : Cmp → List Char
  | .leq => ['<', '=']
  | .geq => ['>', '=']
  | .eq => ['=', '=']
  | .lt => ['<']
  | .gt => ['>']

/-- The two ways to write a conjunction -/
inductive AndSign where
  | amps | word

/-- The characters of it -/
def AndSign.text : AndSign → List Char
  | .amps => ['&', '&']
  | .word => ['a', 'n', 'd']

/-- A state as a user writes it -/
inductive StateText where
  | compare (l : SumText) (b : List Blank) (o : Cmp) (b' : List Blank) (r : SumText)
  | location (v : VarText)
  | truth (b : Bool)
  | parens (b : List Blank) (w : StateText) (b' : List Blank)
  | and (l : StateText) (b : List Blank) (s : AndSign) (b' : List Blank) (r : StateText)

/-- The conjunction of some states; a single one is not wrapped. -/
def conjOf : List StateExpr → StateExpr
  | [e] => e
  | es => .and es

namespace StateText

/-- The text -/
def text : StateText → List Char
  | compare l b o b' r => l.text ++ (blanks b ++ (o.sign ++ (blanks b' ++ r.text)))
  | location v => v.text
  | truth b => if b then "true".toList else "false".toList
  | parens b w b' => '(' :: (blanks b ++ (w.text ++ (blanks b' ++ [')'])))
  | and l b s b' r => l.text ++ (blanks b ++ (s.text ++ (blanks b' ++ r.text)))

/-- The conjuncts that are outside parentheses -/
def conjuncts : StateText → List StateExpr
  | compare l _ o _ r => [.cmp o l.meaning r.meaning]
  | location v => [.location v.meaning]
  | truth b => [.bool b]
  | parens _ w _ => [conjOf w.conjuncts]
  | and l _ _ _ r => l.conjuncts ++ r.conjuncts

/-- The state that is meant -/
def meaning (w : StateText) : StateExpr := conjOf w.conjuncts

/-- The names and numbers can be written; no part begins with a component whose name begins with `not`; there is a blank
before every `and`. -/
def Fine : StateText → Prop
  | compare l _ _ _ r => l.Fine ∧ l.NotNot ∧ r.Fine
  | location v => v.meaning.Writable ∧ ¬ ['n', 'o', 't'] <+: v.comp.name.toList
  | truth _ => True
  | parens _ w _ => w.Fine
  | and l b s _ r => l.Fine ∧ r.Fine ∧ (s = .word → b ≠ [])

end StateText

end Reveaal
