import Verif.Model.EdgeText
import Mathlib.Tactic.Linarith

/-!
# Reading back what was written: literals, names, numbers and infix operators
-/

namespace Reveaal.Text

/-- The text does not begin with a character of a name or number -/
def Ends (cs : Chars) : Prop := ∀ c, cs.head? = some c → isWord c = false

theorem ends_nil : Ends [] := by intro c h; cases h

theorem ends_cons {c : Char} {cs : Chars} (h : isWord c = false) : Ends (c :: cs) := by
  intro d hd; cases hd; exact h

theorem skip_cons {c : Char} {cs : Chars} (h : c ≠ ' ' ∧ c ≠ '\n' ∧ c ≠ '\t' ∧ c ≠ '\r') :
    skip (c :: cs) = c :: cs := by
  obtain ⟨h1, h2, h3, h4⟩ := h
  unfold skip
  split <;> simp_all

theorem isWord_of_alpha {c : Char} (h : c.isAlpha = true) : isWord c = true := by
  simp [isWord, Char.isAlphanum, h]

theorem isWord_of_digit {c : Char} (h : c.isDigit = true) : isWord c = true := by
  simp [isWord, Char.isAlphanum, h]

theorem not_blank_of_word {c : Char} (h : isWord c = true) : c ≠ ' ' ∧ c ≠ '\n' ∧ c ≠ '\t' ∧ c ≠ '\r' := by
  refine ⟨?_, ?_, ?_, ?_⟩ <;> rintro rfl <;> exact absurd h (by decide)

theorem skip_word {c : Char} {cs : Chars} (h : isWord c = true) : skip (c :: cs) = c :: cs :=
  skip_cons (not_blank_of_word h)

theorem takeWhile_append_stop {p : Char → Bool} {w rest : Chars} (hw : ∀ c ∈ w, p c = true)
    (hr : ∀ c, rest.head? = some c → p c = false) :
    (w ++ rest).takeWhile p = w ∧ (w ++ rest).dropWhile p = rest := by
  induction w with
  | nil =>
    cases rest with
    | nil => exact ⟨rfl, rfl⟩
    | cons c rest =>
      have := hr c rfl
      simp [this]
  | cons a w ih =>
    have ha := hw a (List.mem_cons_self ..)
    obtain ⟨h1, h2⟩ := ih fun c hc => hw c (List.mem_cons_of_mem _ hc)
    simp only [List.cons_append, List.takeWhile, List.dropWhile, ha, h1, h2, and_self]

theorem lit_append (l cs : Chars) : lit l (l ++ cs) = some cs := by
  induction l with
  | nil => cases cs <;> rfl
  | cons c l ih => simpa [lit] using ih

/-- The text is a name: a letter followed by letters, digits and underscores. -/
def IsNameText (w : Chars) : Prop := ∃ c cs, w = c :: cs ∧ c.isAlpha = true ∧ ∀ d ∈ cs, isWord d = true

theorem word_append {w rest : Chars} (hw : IsNameText w) (hr : Ends rest) : word (w ++ rest) = some (w, rest) := by
  obtain ⟨c, cs, rfl, hc, hcs⟩ := hw
  obtain ⟨h1, h2⟩ := takeWhile_append_stop (rest := rest) hcs hr
  simp only [List.cons_append, word, hc, if_true, h1, h2]

theorem digits_word {c : Char} {cs : Chars} (hc : c.isAlpha = true) : digits (c :: cs) = none := by
  have h0 : c ≠ '0' := by rintro rfl; exact absurd hc (by decide)
  have hd : c.isDigit = false := by
    cases h : c.isDigit with
    | false => rfl
    | true =>
      simp only [Char.isDigit, Char.isAlpha, Char.isUpper, Char.isLower, Bool.or_eq_true, Bool.and_eq_true,
        decide_eq_true_eq, UInt32.le_iff_toNat_le] at h hc
      have e0 : '0'.toNat = 48 := rfl
      have e9 : '9'.toNat = 57 := rfl
      have eA : 'A'.toNat = 65 := rfl
      have eZ : 'Z'.toNat = 90 := rfl
      have ea : 'a'.toNat = 97 := rfl
      have ez : 'z'.toNat = 122 := rfl
      norm_num at h hc
      omega
  simp [digits, h0, hd]

theorem toDigits_head {n : Nat} (hn : 0 < n) : ∃ c cs, Nat.toDigits 10 n = c :: cs ∧ c ≠ '0' := by
  induction n using Nat.strongRecOn with
  | _ n ih =>
    by_cases h : n < 10
    · rw [Nat.toDigits_of_lt_base h]
      refine ⟨_, _, rfl, ?_⟩
      have : n = 1 ∨ n = 2 ∨ n = 3 ∨ n = 4 ∨ n = 5 ∨ n = 6 ∨ n = 7 ∨ n = 8 ∨ n = 9 := by omega
      rcases this with rfl | rfl | rfl | rfl | rfl | rfl | rfl | rfl | rfl <;> decide
    · obtain ⟨c, cs, hc, h0⟩ := ih (n / 10) (by omega) (by omega)
      rw [Nat.toDigits_of_base_le (by decide) (by omega), hc]
      exact ⟨c, _, rfl, h0⟩

theorem toDigits_isDigit (n : Nat) : ∀ c ∈ Nat.toDigits 10 n, c.isDigit = true :=
  fun _ hc => Nat.isDigit_of_mem_toDigits (by decide) (by decide) hc

theorem digits_append {n : Nat} {rest : Chars} (hr : Ends rest) :
    digits (Nat.toDigits 10 n ++ rest) = some (Nat.toDigits 10 n, rest) := by
  rcases Nat.eq_zero_or_pos n with rfl | hn
  · rfl
  · obtain ⟨c, cs, hc, h0⟩ := toDigits_head hn
    have hd := toDigits_isDigit n
    rw [hc] at hd ⊢
    obtain ⟨h1, h2⟩ := takeWhile_append_stop (p := Char.isDigit) (rest := rest)
      (fun d hd' => hd d (List.mem_cons_of_mem _ hd')) (fun d hd' => by
        have := hr d hd'
        cases h : d.isDigit with
        | false => rfl
        | true => rw [isWord_of_digit h] at this; cases this)
    simp only [List.cons_append, digits, h0, if_false, hd c (List.mem_cons_self ..), if_true, h1, h2]

theorem readInt_toDigits {n : Nat} (h : n ≤ 2147483647) : readInt (Nat.toDigits 10 n) = .ok (n : Int) := by
  have : Nat.ofDigitChars 10 (Nat.toDigits 10 n) 0 = n := Nat.ofDigitChars_toDigits (by decide) (by decide)
  simp only [readInt, this, h, if_true]

/-! ## The Pratt parser -/

section Pratt
variable {α ω : Type} {prec : ω → Nat} {mk : α → ω → α → α}

theorem pratt_length (n rbp : Nat) (lhs : α) (rest : List (ω × α)) :
    (pratt prec mk n rbp lhs rest).2.length ≤ rest.length := by
  induction n generalizing rbp lhs rest with
  | zero => simp [pratt]
  | succ n ih =>
    cases rest with
    | nil => simp [pratt]
    | cons p rest =>
      obtain ⟨o, x⟩ := p
      simp only [pratt]
      split
      · have h1 := ih (prec o) x rest
        have h2 := ih rbp (mk lhs o (pratt prec mk n (prec o) x rest).1) (pratt prec mk n (prec o) x rest).2
        simp only [List.length_cons]; omega
      · simp

theorem pratt_fuel {n m : Nat} (rbp : Nat) (lhs : α) (rest : List (ω × α)) (hn : rest.length < n) (hm : rest.length < m) :
    pratt prec mk n rbp lhs rest = pratt prec mk m rbp lhs rest := by
  induction n generalizing m rbp lhs rest with
  | zero => omega
  | succ n ih =>
    cases m with
    | zero => omega
    | succ m =>
      cases rest with
      | nil => simp [pratt]
      | cons p rest =>
        obtain ⟨o, x⟩ := p
        simp only [List.length_cons] at hn hm
        simp only [pratt]
        rw [ih (m := m) (prec o) x rest (by omega) (by omega)]
        have hl := pratt_length (prec := prec) (mk := mk) m (prec o) x rest
        rw [ih (m := m) rbp _ _ (by omega) (by omega)]

/-- The Pratt parser with enough fuel -/
def climb (prec : ω → Nat) (mk : α → ω → α → α) (rbp : Nat) (lhs : α) (rest : List (ω × α)) : α × List (ω × α) :=
  pratt prec mk (rest.length + 1) rbp lhs rest

theorem climb_nil (rbp : Nat) (lhs : α) : climb prec mk rbp lhs [] = (lhs, []) := rfl

theorem climb_cons (rbp : Nat) (lhs : α) (o : ω) (x : α) (rest : List (ω × α)) :
    climb prec mk rbp lhs ((o, x) :: rest) =
      if rbp < prec o then
        climb prec mk rbp (mk lhs o (climb prec mk (prec o) x rest).1) (climb prec mk (prec o) x rest).2
      else (lhs, (o, x) :: rest) := by
  unfold climb
  conv_lhs => simp only [List.length_cons, pratt]
  split
  · have hl := pratt_length (prec := prec) (mk := mk) (rest.length + 1) (prec o) x rest
    rw [pratt_fuel (m := (pratt prec mk (rest.length + 1) (prec o) x rest).2.length + 1) rbp _ _ (by omega) (by omega)]
  · rfl

/-- An expression with infix operators -/
inductive OpTree (α ω : Type) where
  | leaf (a : α)
  | node (l : OpTree α ω) (o : ω) (r : OpTree α ω)

namespace OpTree

/-- The leftmost operand -/
def first : OpTree α ω → α
  | leaf a => a
  | node l _ _ => l.first

/-- The operators and operands after the leftmost one, from left to right -/
def tail : OpTree α ω → List (ω × α)
  | leaf _ => []
  | node l o r => l.tail ++ (o, r.first) :: r.tail

/-- The expression computed by applying the operators -/
def val (mk : α → ω → α → α) : OpTree α ω → α
  | leaf a => a
  | node l o r => mk (l.val mk) o (r.val mk)

/-- Needs no parentheses where only operators of strength `p` or more may be used, all being left associative -/
def Fits (prec : ω → Nat) : Nat → OpTree α ω → Prop
  | _, leaf _ => True
  | p, node l o r => p ≤ prec o ∧ l.Fits prec (prec o) ∧ r.Fits prec (prec o + 1)

theorem Fits.mono {p q : Nat} (hpq : p ≤ q) {t : OpTree α ω} (h : t.Fits prec q) : t.Fits prec p := by
  cases t with
  | leaf a => trivial
  | node l o r => exact ⟨hpq.trans h.1, h.2⟩

/-- The operators of the rest bind no more tightly than the topmost operator of the tree. -/
def Before (prec : ω → Nat) (t : OpTree α ω) (rest : List (ω × α)) : Prop :=
  match t, rest with
  | leaf _, _ => True
  | _, [] => True
  | node _ o _, (o', _) :: _ => prec o' ≤ prec o

theorem climb_tree (t : OpTree α ω) : ∀ (rbp : Nat) (rest : List (ω × α)), t.Fits prec (rbp + 1) → t.Before prec rest →
    climb prec mk rbp t.first (t.tail ++ rest) = climb prec mk rbp (t.val mk) rest := by
  induction t with
  | leaf a => intro rbp rest _ _; rfl
  | node l o r ihl ihr =>
    intro rbp rest hf hb
    obtain ⟨hp, hl, hr⟩ := hf
    have e : (node l o r).tail ++ rest = l.tail ++ (o, r.first) :: (r.tail ++ rest) := by simp [tail]
    rw [e]
    show climb prec mk rbp l.first _ = _
    rw [ihl rbp _ (hl.mono hp) ?_, climb_cons, if_pos (by omega), ihr (prec o) rest hr ?_]
    · have hstop : climb prec mk (prec o) (r.val mk) rest = (r.val mk, rest) := by
        cases rest with
        | nil => rfl
        | cons q rest =>
          obtain ⟨o', x⟩ := q
          rw [climb_cons, if_neg (by simpa [Before] using hb)]
      rw [hstop]; rfl
    · cases r with
      | leaf a => trivial
      | node l' o' r' =>
        cases rest with
        | nil => trivial
        | cons q rest =>
          obtain ⟨o'', x⟩ := q
          have h1 : prec o'' ≤ prec o := hb
          have h2 : prec o + 1 ≤ prec o' := hr.1
          show prec o'' ≤ prec o'
          omega
    · cases l with
      | leaf a => trivial
      | node l' o' r' => exact hl.1

theorem parse_tree {t : OpTree α ω} (h : t.Fits prec 1) : prattParse prec mk t.first t.tail = t.val mk := by
  have := climb_tree (mk := mk) t 0 [] h (by cases t <;> trivial)
  rw [List.append_nil] at this
  show (climb prec mk 0 t.first t.tail).1 = _
  rw [this]; rfl

end OpTree

end Pratt

/-! ## Reading an infix expression -/

section Infix
variable {τ α ω : Type}

namespace OpTree

/-- The text of an expression without parentheses -/
def write (leafText : τ → Chars) (opText : ω → Chars) : OpTree τ ω → Chars
  | leaf a => leafText a
  | node l o r => l.write leafText opText ++ (opText o ++ r.write leafText opText)

/-- The text of the operators and operands after the first -/
def writeTail (leafText : τ → Chars) (opText : ω → Chars) : List (ω × τ) → Chars
  | [] => []
  | (o, a) :: l => opText o ++ (leafText a ++ writeTail leafText opText l)

theorem writeTail_append (leafText : τ → Chars) (opText : ω → Chars) (l l' : List (ω × τ)) :
    writeTail leafText opText (l ++ l') = writeTail leafText opText l ++ writeTail leafText opText l' := by
  induction l with
  | nil => rfl
  | cons p l ih => simp [writeTail, ih]

theorem write_eq (leafText : τ → Chars) (opText : ω → Chars) (t : OpTree τ ω) :
    t.write leafText opText = leafText t.first ++ writeTail leafText opText t.tail := by
  induction t with
  | leaf a => simp [write, first, tail, writeTail]
  | node l o r ihl ihr => simp [write, first, tail, writeTail_append, writeTail, ihl, ihr]

/-- The operands -/
def Leaf (a : τ) : OpTree τ ω → Prop
  | leaf b => a = b
  | node l _ r => l.Leaf a ∨ r.Leaf a

theorem leaf_first (t : OpTree τ ω) : t.Leaf t.first := by
  induction t with
  | leaf a => rfl
  | node l o r ihl ihr => exact .inl ihl

theorem leaf_tail (t : OpTree τ ω) : ∀ p ∈ t.tail, t.Leaf p.2 := by
  induction t with
  | leaf a => intro p hp; cases hp
  | node l o r ihl ihr =>
    intro p hp
    rcases List.mem_append.1 hp with h | h
    · exact .inl (ihl p h)
    · rcases List.mem_cons.1 h with rfl | h
      · exact .inr r.leaf_first
      · exact .inr (ihr p h)

/-- The expression with every operand replaced -/
def map (f : τ → α) : OpTree τ ω → OpTree α ω
  | leaf a => leaf (f a)
  | node l o r => node (l.map f) o (r.map f)

theorem map_first (f : τ → α) (t : OpTree τ ω) : (t.map f).first = f t.first := by
  induction t with
  | leaf a => rfl
  | node l o r ihl ihr => exact ihl

theorem map_tail (f : τ → α) (t : OpTree τ ω) : (t.map f).tail = t.tail.map fun p => (p.1, f p.2) := by
  induction t with
  | leaf a => rfl
  | node l o r ihl ihr => simp [map, tail, ihl, ihr, map_first]

theorem map_fits {prec : ω → Nat} (f : τ → α) {p : Nat} {t : OpTree τ ω} (h : t.Fits prec p) : (t.map f).Fits prec p := by
  induction t generalizing p with
  | leaf a => trivial
  | node l o r ihl ihr => exact ⟨h.1, ihl h.2.1, ihr h.2.2⟩

end OpTree

theorem many_reads {op : Rule ω} {term : Rule α} {leafText : τ → Chars} {opText : ω → Chars} {sem : τ → α}
    {Stop : Chars → Prop} (l : List (ω × τ))
    (hterm : ∀ p ∈ l, ∀ rest, Stop rest → term (leafText p.2 ++ rest) = some (sem p.2, rest))
    (hop : ∀ p ∈ l, ∀ rest, ∃ r, op (skip (opText p.1 ++ (leafText p.2 ++ rest))) = some (p.1, r) ∧
      skip r = leafText p.2 ++ rest)
    (hstop : ∀ p ∈ l, ∀ rest, Stop (opText p.1 ++ rest))
    (rest : Chars) (hrest : Stop rest) (hend : ∀ o r, op (skip rest) = some (o, r) → term (skip r) = none) (n : Nat)
    (hn : l.length ≤ n) :
    many op term n (OpTree.writeTail leafText opText l ++ rest) = (l.map fun p => (p.1, sem p.2), rest) := by
  induction l generalizing n with
  | nil =>
    cases n with
    | zero => rfl
    | succ n =>
      simp only [OpTree.writeTail, List.nil_append, many, List.map_nil]
      split
      · rfl
      · rename_i o r ho
        rw [hend o r ho]
  | cons p l ih =>
    cases n with
    | zero => simp at hn
    | succ n =>
      obtain ⟨r, h1, h2⟩ := hop p (List.mem_cons_self ..) (OpTree.writeTail leafText opText l ++ rest)
      have hs : Stop (OpTree.writeTail leafText opText l ++ rest) := by
        cases l with
        | nil => exact hrest
        | cons q l =>
          obtain ⟨o, a⟩ := q
          show Stop ((opText o ++ _) ++ rest)
          rw [List.append_assoc]
          exact hstop (o, a) (by simp) _
      have h3 := hterm p (List.mem_cons_self ..) _ hs
      have h4 := ih (fun q hq => hterm q (List.mem_cons_of_mem _ hq)) (fun q hq => hop q (List.mem_cons_of_mem _ hq))
        (fun q hq => hstop q (List.mem_cons_of_mem _ hq)) n (by simpa using hn)
      have e : OpTree.writeTail leafText opText (p :: l) ++ rest
          = opText p.1 ++ (leafText p.2 ++ (OpTree.writeTail leafText opText l ++ rest)) := by
        simp [OpTree.writeTail]
      rw [e]
      simp only [many, h1, h2, h3, h4, List.map_cons]

theorem writeTail_length {leafText : τ → Chars} {opText : ω → Chars} (hne : ∀ o, opText o ≠ []) (l : List (ω × τ)) :
    l.length ≤ (OpTree.writeTail leafText opText l).length := by
  induction l with
  | nil => simp
  | cons p l ih =>
    have := List.length_pos_iff.2 (hne p.1)
    simp only [OpTree.writeTail, List.length_cons, List.length_append]; omega

/-- A written expression is read back: the operands by the rule `term`, each as `sem`, with the operators applied as the
tree says. -/
theorem infixRule_reads {op : Rule ω} {prec : ω → Nat} {mk : ω → α → α → α} {term : Rule (Res α)}
    {leafText : τ → Chars} {opText : ω → Chars} {sem : τ → Res α} {Stop : Chars → Prop} (t : OpTree τ ω)
    (hfit : t.Fits prec 1) (hne : ∀ o, opText o ≠ [])
    (hterm : ∀ a, t.Leaf a → ∀ rest, Stop rest → term (leafText a ++ rest) = some (sem a, rest))
    (hop : ∀ o a, t.Leaf a → ∀ rest, ∃ r, op (skip (opText o ++ (leafText a ++ rest))) = some (o, r) ∧
      skip r = leafText a ++ rest)
    (hstop : ∀ o rest, Stop (opText o ++ rest))
    (rest : Chars) (hrest : Stop rest) (hend : op (skip rest) = none) :
    infixRule op prec mk term (t.write leafText opText ++ rest) =
      some ((t.map sem).val fun l o x => lift2 (mk o) l x, rest) := by
  have hs : Stop (OpTree.writeTail leafText opText t.tail ++ rest) := by
    cases h : t.tail with
    | nil => exact hrest
    | cons q l =>
      obtain ⟨o, a⟩ := q
      show Stop ((opText o ++ _) ++ rest)
      rw [List.append_assoc]
      exact hstop o _
  have h1 := hterm t.first t.leaf_first _ hs
  have hlen := writeTail_length (leafText := leafText) hne t.tail
  have h2 := many_reads (op := op) (term := term) (sem := sem) t.tail (fun p hp => hterm p.2 (t.leaf_tail p hp))
    (fun p hp => hop p.1 p.2 (t.leaf_tail p hp)) (fun p _ => hstop p.1) rest hrest
    (by intro o r h; rw [hend] at h; cases h)
    (OpTree.writeTail leafText opText t.tail ++ rest).length (by simp only [List.length_append]; omega)
  have h3 := OpTree.parse_tree (prec := prec) (mk := fun l o x => lift2 (mk o) l x) (OpTree.map_fits sem hfit)
  rw [OpTree.map_first, OpTree.map_tail] at h3
  rw [OpTree.write_eq, List.append_assoc]
  simp only [infixRule, h1, Option.bind_eq_bind, Option.bind_some, h2, h3]

end Infix

/-! ## What was read -/

/-- The rest of the text is the end of the text. -/
def Shrinks {α : Type} (rule : Rule α) : Prop := ∀ cs x r, rule cs = some (x, r) → r <:+ cs

theorem skip_suffix (cs : Chars) : skip cs <:+ cs := by
  induction cs using skip.induct with
  | case1 r ih => unfold skip; exact ih.trans (List.suffix_cons _ _)
  | case2 r ih => unfold skip; exact ih.trans (List.suffix_cons _ _)
  | case3 r ih => unfold skip; exact ih.trans (List.suffix_cons _ _)
  | case4 r ih => unfold skip; exact ih.trans ((List.suffix_cons _ _).trans (List.suffix_cons _ _))
  | case5 r h1 h2 h3 h4 =>
    have : skip r = r := by unfold skip; split <;> simp_all
    rw [this]; exact List.suffix_refl _

theorem lit_suffix {l cs r : Chars} (h : lit l cs = some r) : r <:+ cs := by
  induction l generalizing cs with
  | nil => cases h; exact List.suffix_refl _
  | cons c l ih =>
    cases cs with
    | nil => cases h
    | cons d cs =>
      simp only [lit] at h
      split at h
      · exact (ih h).trans (List.suffix_cons _ _)
      · cases h

theorem word_shrinks : Shrinks word := by
  intro cs x r h
  cases cs with
  | nil => cases h
  | cons c cs =>
    simp only [word] at h
    split at h
    · cases h
      exact (List.dropWhile_suffix _).trans (List.suffix_cons _ _)
    · cases h

theorem digits_shrinks : Shrinks digits := by
  intro cs x r h
  cases cs with
  | nil => cases h
  | cons c cs =>
    simp only [digits] at h
    split at h
    · cases h; exact List.suffix_cons _ _
    · split at h
      · cases h
        exact (List.dropWhile_suffix _).trans (List.suffix_cons _ _)
      · cases h

theorem oneOf_shrinks {ω : Type} (l : List (Chars × ω)) : Shrinks (oneOf l) := by
  induction l with
  | nil => intro cs x r h; cases h
  | cons p l ih =>
    intro cs x r h
    simp only [oneOf] at h
    split at h
    · rename_i r' hr
      cases h
      exact lit_suffix hr
    · exact ih cs x r h

theorem many_suffix {ω τ : Type} {op : Rule ω} {term : Rule τ} (hop : Shrinks op) (hterm : Shrinks term) (n : Nat)
    (cs : Chars) : (many op term n cs).2 <:+ cs := by
  induction n generalizing cs with
  | zero => exact List.suffix_refl _
  | succ n ih =>
    simp only [many]
    split
    · exact List.suffix_refl _
    · rename_i o r ho
      split
      · exact List.suffix_refl _
      · rename_i t r' ht
        exact (ih r').trans ((hterm _ _ _ ht).trans ((skip_suffix _).trans ((hop _ _ _ ho).trans (skip_suffix _))))

/-- The operands that were read were each read by the rule from an end of the text. -/
theorem many_mem {ω τ : Type} {op : Rule ω} {term : Rule τ} (hop : Shrinks op) (hterm : Shrinks term) (n : Nat)
    (cs : Chars) : ∀ p ∈ (many op term n cs).1, ∃ cs' r, cs' <:+ cs ∧ term cs' = some (p.2, r) := by
  induction n generalizing cs with
  | zero => intro p hp; cases hp
  | succ n ih =>
    simp only [many]
    split
    · intro p hp; cases hp
    · rename_i o r ho
      have h1 : skip r <:+ cs := (skip_suffix _).trans ((hop _ _ _ ho).trans (skip_suffix _))
      split
      · intro p hp; cases hp
      · rename_i t r' ht
        intro p hp
        rcases List.mem_cons.1 hp with rfl | hp
        · exact ⟨skip r, r', h1, ht⟩
        · obtain ⟨cs', r'', h2, h3⟩ := ih r' p hp
          exact ⟨cs', r'', h2.trans ((hterm _ _ _ ht).trans h1), h3⟩

theorem orElse_shrinks {α : Type} {a b : Rule α} (ha : Shrinks a) (hb : Shrinks b) : Shrinks (orElse a b) := by
  intro cs x r h
  simp only [orElse] at h
  split at h
  · rename_i y hy
    cases h
    exact ha _ _ _ hy
  · exact hb _ _ _ h

theorem parens_shrinks {α : Type} {rule : Rule α} (h : Shrinks rule) : Shrinks (parens rule) := by
  intro cs x r hr
  simp only [parens, Option.bind_eq_bind, Option.bind_eq_some_iff, Prod.exists, Option.some.injEq, Prod.mk.injEq] at hr
  obtain ⟨r1, h1, e, r2, h2, r3, h3, rfl, rfl⟩ := hr
  exact (lit_suffix h3).trans ((skip_suffix _).trans ((h _ _ _ h2).trans ((skip_suffix _).trans (lit_suffix h1))))

theorem infixRule_shrinks {α ω : Type} {op : Rule ω} {prec : ω → Nat} {mk : ω → α → α → α} {term : Rule (Res α)}
    (hop : Shrinks op) (hterm : Shrinks term) : Shrinks (infixRule op prec mk term) := by
  intro cs x r hr
  simp only [infixRule, Option.bind_eq_bind, Option.bind_eq_some_iff, Prod.exists, Option.some.injEq, Prod.mk.injEq] at hr
  obtain ⟨t, r1, h1, _, rfl⟩ := hr
  exact (many_suffix hop hterm _ _).trans (hterm _ _ _ h1)

/-- What an infix rule reads is put together from what the rule for operands reads from ends of the text. -/
theorem infixRule_all {α ω : Type} {op : Rule ω} {prec : ω → Nat} {mk : ω → α → α → α} {term : Rule (Res α)}
    (hop : Shrinks op) (hterm : Shrinks term) {cs r : Chars} {x : Res α} {Q : Res α → Prop}
    (h : infixRule op prec mk term cs = some (x, r)) (hQ : ∀ cs' t r', cs' <:+ cs → term cs' = some (t, r') → Q t) :
    ∃ first rest, x = prattParse prec (fun l o x => lift2 (mk o) l x) first rest ∧ Q first ∧ ∀ p ∈ rest, Q p.2 := by
  simp only [infixRule, Option.bind_eq_bind, Option.bind_eq_some_iff, Prod.exists, Option.some.injEq, Prod.mk.injEq] at h
  obtain ⟨t, r1, h1, rfl, rfl⟩ := h
  refine ⟨t, _, rfl, hQ _ _ _ (List.suffix_refl _) h1, ?_⟩
  intro p hp
  obtain ⟨cs', r', hsub, ht⟩ := many_mem hop hterm _ _ p hp
  exact hQ _ _ _ (hsub.trans (hterm _ _ _ h1)) ht

/-- A text without an opening parenthesis does not begin with one. -/
theorem parens_none {α : Type} {rule : Rule α} {cs : Chars} (h : '(' ∉ cs) : parens rule cs = none := by
  cases cs with
  | nil => rfl
  | cons c cs =>
    have : '(' ≠ c := fun e => h (e ▸ List.mem_cons_self ..)
    simp [parens, lit, this]

section Climb
variable {α ω : Type} {prec : ω → Nat} {mk : α → ω → α → α}

/-- The Pratt parser groups operators by strength and to the left: a property of expressions that is preserved by such
grouping holds of its result. -/
theorem climb_groups {P : Nat → α → Prop} {Q : α → Prop}
    (hmk : ∀ l o r, P (prec o) l → P (prec o + 1) r → P (prec o) (mk l o r))
    (hanti : ∀ p q x, p ≤ q → P q x → P p x) (hleaf : ∀ x, Q x → ∀ p, P p x) :
    ∀ (k : Nat) (rest : List (ω × α)), rest.length ≤ k → ∀ (rbp : Nat) (lhs : α), (∀ p ∈ rest, Q p.2) →
      P (rbp + 1) lhs → (∀ o x rest', rest = (o, x) :: rest' → P (prec o) lhs) →
      P (rbp + 1) (climb prec mk rbp lhs rest).1 ∧
      (∀ o x rest', (climb prec mk rbp lhs rest).2 = (o, x) :: rest' → prec o ≤ rbp) ∧
      (climb prec mk rbp lhs rest).2.length ≤ rest.length ∧
      ∀ p ∈ (climb prec mk rbp lhs rest).2, p ∈ rest := by
  intro k
  induction k with
  | zero =>
    intro rest hk rbp lhs _ h2 _
    have : rest = [] := List.length_eq_zero_iff.1 (Nat.le_zero.1 hk)
    subst this
    refine ⟨h2, ?_, Nat.le_refl _, ?_⟩
    · intro o x rest' h; cases h
    · intro p hp; cases hp
  | succ k ih =>
    intro rest hk rbp lhs hQ hP hhead
    cases rest with
    | nil =>
      refine ⟨hP, ?_, Nat.le_refl _, ?_⟩
      · intro o x rest' h; cases h
      · intro p hp; cases hp
    | cons q rest =>
      obtain ⟨o, x⟩ := q
      rw [climb_cons]
      split
      · rename_i hlt
        have hx : Q x := hQ (o, x) (List.mem_cons_self ..)
        obtain ⟨i1, i2, i3, i4⟩ := ih rest (by simpa using hk) (prec o) x
          (fun p hp => hQ p (List.mem_cons_of_mem _ hp)) (hleaf x hx _) (fun o' x' rest' _ => hleaf x hx _)
        have hnew := hmk lhs o _ (hhead o x rest rfl) i1
        obtain ⟨j1, j2, j3, j4⟩ := ih (climb prec mk (prec o) x rest).2
          (i3.trans (by simpa using hk)) rbp (mk lhs o (climb prec mk (prec o) x rest).1)
          (fun p hp => hQ p (List.mem_cons_of_mem _ (i4 p hp))) (hanti _ _ _ (by omega) hnew)
          (fun o' x' rest' h => hanti _ _ _ (i2 o' x' rest' h) hnew)
        refine ⟨j1, j2, ?_, fun p hp => List.mem_cons_of_mem _ (i4 p (j4 p hp))⟩
        simp only [List.length_cons]; omega
      · rename_i hlt
        refine ⟨hP, ?_, Nat.le_refl _, fun p hp => hp⟩
        intro o' x' rest' h
        cases h
        omega

theorem prattParse_groups {P : Nat → α → Prop} {Q : α → Prop}
    (hmk : ∀ l o r, P (prec o) l → P (prec o + 1) r → P (prec o) (mk l o r))
    (hanti : ∀ p q x, p ≤ q → P q x → P p x) (hleaf : ∀ x, Q x → ∀ p, P p x) {first : α} {rest : List (ω × α)}
    (hf : Q first) (hr : ∀ p ∈ rest, Q p.2) : P 1 (prattParse prec mk first rest) :=
  (climb_groups hmk hanti hleaf rest.length rest (Nat.le_refl _) 0 first hr (hleaf _ hf _) fun _ _ _ _ => hleaf _ hf _).1

end Climb

end Reveaal.Text
