import Verif.Model.SystemDecls

/-!
# How system declarations are written

The specification of C66: what is declared, and the texts that declare it.
-/

namespace Reveaal

/-- a name: not empty, without blanks and punctuation -/
def PlainName (s : String) : Prop :=
  s.toList ≠ [] ∧ ∀ c ∈ s.toList, isWhite c = false ∧ c ≠ ',' ∧ c ≠ ';' ∧ c ≠ '{' ∧ c ≠ '}' ∧ c ≠ '?' ∧ c ≠ '!'

/-- an action of a component, as an input or as an output, and the number of blanks after it (or after its comma) -/
structure IoItem where
  name : String
  input : Bool
  after : Nat

def IoItem.text (i : IoItem) : List Char := i.name.toList ++ [if i.input then '?' else '!']

/-- `a?, b!,c!  ` -/
def itemsText : List IoItem → List Char
  | [] => []
  | [i] => i.text ++ List.replicate i.after ' '
  | i :: j :: is => i.text ++ ',' :: (List.replicate i.after ' ' ++ itemsText (j :: is))

/-- the lines of system declarations besides the one that names the components -/
inductive DeclLine where
  | empty
  | comment (text : List Char)
  | io (component : String) (before : Nat) (items : List IoItem)

/-- `IO A { a?, b!}` -/
def DeclLine.text : DeclLine → List Char
  | .empty => []
  | .comment t => '/' :: '/' :: t
  | .io c k is => 'I' :: 'O' :: ' ' :: (c.toList ++ ' ' :: '{' :: (List.replicate k ' ' ++ (itemsText is ++ ['}'])))

/-- `system A, B;` -/
def systemText (names : List String) : List Char :=
  "system".toList ++ ([','].intercalate (names.map fun n => ' ' :: n.toList) ++ [';'])

/-- what the lines declare for a component, as inputs or as outputs -/
def declaredIo (input : Bool) (lines : List DeclLine) (component : String) : List String :=
  lines.flatMap fun
    | .io c _ is => if c = component then (is.filter fun i => i.input == input).map (·.name) else []
    | _ => []

/-- Comments and empty lines, the line that names the components, comments, empty lines and declarations of inputs and
outputs of these components. -/
structure SystemText where
  before : List DeclLine
  names : List String
  lines : List DeclLine

/-- Every line may end with `eol` (a carriage return, or nothing). -/
def SystemText.text (t : SystemText) (eol : List Char) : List Char :=
  ['\n'].intercalate ((t.before.map DeclLine.text ++ systemText t.names :: t.lines.map DeclLine.text).map (· ++ eol))

structure SystemText.Proper (t : SystemText) : Prop where
  named : t.names ≠ []
  plain : ∀ n ∈ t.names, PlainName n
  before : ∀ l ∈ t.before, l = .empty ∨ ∃ c, l = .comment c ∧ '\n' ∉ c
  lines : ∀ l ∈ t.lines, l = .empty ∨ (∃ c, l = .comment c ∧ '\n' ∉ c) ∨
    ∃ c k is, l = .io c k is ∧ c ∈ t.names ∧ ∀ i ∈ is, PlainName i.name

end Reveaal
