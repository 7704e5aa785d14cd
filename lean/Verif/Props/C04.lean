import Verif.Lemmas.Text
import Verif.Lemmas.Compile
import Mathlib.Data.List.TakeWhile
import Verif.Spec.Text
import Verif.Spec.Guard

/-!
# C04: saving and reloading a guard
-/

namespace Reveaal
open Text

/-! ## Arithmetic expressions -/

/-- The expression as a tree of operators -/
def Arith.tree : Arith → OpTree Arith AOp
  | .add l r => .node l.tree .add r.tree
  | .dif l r => .node l.tree .sub r.tree
  | .mul l r => .node l.tree .mul r.tree
  | .div l r => .node l.tree .div r.tree
  | .mod l r => .node l.tree .mod r.tree
  | e => .leaf e

/-- The text of an operator -/
def AOp.text : AOp → Chars
  | .add => ['+']
  | .sub => ['-']
  | .mul => ['*']
  | .div => ['/']
  | .mod => ['%']

/-- A number or name that can be written -/
def Arith.Writable : Arith → Prop
  | .int c => 0 ≤ c ∧ c ≤ 2147483647
  | .var n => IsName n
  | _ => False

theorem Arith.tree_write (e : Arith) : e.tree.write Arith.encode AOp.text = e.encode := by
  induction e with
  | add l r ihl ihr => simp [Arith.tree, OpTree.write, Arith.encode, ihl, ihr, AOp.text]
  | dif l r ihl ihr => simp [Arith.tree, OpTree.write, Arith.encode, ihl, ihr, AOp.text]
  | mul l r ihl ihr => simp [Arith.tree, OpTree.write, Arith.encode, ihl, ihr, AOp.text]
  | div l r ihl ihr => simp [Arith.tree, OpTree.write, Arith.encode, ihl, ihr, AOp.text]
  | mod l r ihl ihr => simp [Arith.tree, OpTree.write, Arith.encode, ihl, ihr, AOp.text]
  | _ => rfl

theorem Arith.tree_fits {e : Arith} {p : Nat} (h : e.Flat p) : e.tree.Fits AOp.prec p := by
  induction e generalizing p with
  | add l r ihl ihr => exact ⟨h.1, ihl h.2.1, ihr h.2.2⟩
  | dif l r ihl ihr => exact ⟨h.1, ihl h.2.1, ihr h.2.2⟩
  | mul l r ihl ihr => exact ⟨h.1, ihl h.2.1, ihr h.2.2⟩
  | div l r ihl ihr => exact ⟨h.1, ihl h.2.1, ihr h.2.2⟩
  | mod l r ihl ihr => exact ⟨h.1, ihl h.2.1, ihr h.2.2⟩
  | _ => trivial

theorem Arith.tree_leaves {e : Arith} {p : Nat} (h : e.Flat p) : ∀ a, e.tree.Leaf a → a.Writable := by
  induction e generalizing p with
  | add l r ihl ihr => rintro a (ha | ha); exacts [ihl h.2.1 a ha, ihr h.2.2 a ha]
  | dif l r ihl ihr => rintro a (ha | ha); exacts [ihl h.2.1 a ha, ihr h.2.2 a ha]
  | mul l r ihl ihr => rintro a (ha | ha); exacts [ihl h.2.1 a ha, ihr h.2.2 a ha]
  | div l r ihl ihr => rintro a (ha | ha); exacts [ihl h.2.1 a ha, ihr h.2.2 a ha]
  | mod l r ihl ihr => rintro a (ha | ha); exacts [ihl h.2.1 a ha, ihr h.2.2 a ha]
  | clock i => exact h.elim
  | var n => rintro a rfl; exact h
  | int c => rintro a rfl; exact h

theorem Arith.tree_val (e : Arith) :
    (e.tree.map Except.ok).val (fun l o x => lift2 (AOp.mk o) l x) = (.ok e : Res Arith) := by
  induction e with
  | add l r ihl ihr => simp [Arith.tree, OpTree.map, OpTree.val, ihl, ihr]; rfl
  | dif l r ihl ihr => simp [Arith.tree, OpTree.map, OpTree.val, ihl, ihr]; rfl
  | mul l r ihl ihr => simp [Arith.tree, OpTree.map, OpTree.val, ihl, ihr]; rfl
  | div l r ihl ihr => simp [Arith.tree, OpTree.map, OpTree.val, ihl, ihr]; rfl
  | mod l r ihl ihr => simp [Arith.tree, OpTree.map, OpTree.val, ihl, ihr]; rfl
  | _ => rfl

/-- The text of a number or name begins with a letter or digit. -/
theorem Arith.Writable.head {a : Arith} (h : a.Writable) :
    ∃ c cs, a.encode = c :: cs ∧ isWord c = true ∧ c ≠ '(' := by
  have hne : ∀ c : Char, isWord c = true → c ≠ '(' := by rintro c hc rfl; exact absurd hc (by decide)
  cases a with
  | var n =>
    obtain ⟨c, cs, h1, h2, h3⟩ := h
    exact ⟨c, cs, h1, isWord_of_alpha h2, hne c (isWord_of_alpha h2)⟩
  | int c =>
    obtain ⟨n, rfl⟩ := Int.eq_ofNat_of_zero_le h.1
    show ∃ c cs, Nat.toDigits 10 n = c :: cs ∧ _
    cases hd : Nat.toDigits 10 n with
    | nil => exact absurd hd Nat.toDigits_ne_nil
    | cons c cs =>
      have := isWord_of_digit (toDigits_isDigit n c (by rw [hd]; exact List.mem_cons_self ..))
      exact ⟨c, cs, rfl, this, hne c this⟩
  | _ => exact h.elim

theorem Arith.Writable.atom {a : Arith} (h : a.Writable) {rest : Chars} (hr : Ends rest) :
    atomRule (a.encode ++ rest) = some (.ok a, rest) := by
  cases a with
  | var n =>
    obtain ⟨c, cs, h1, h2, h3⟩ := h
    have h4 : word (n.toList ++ rest) = some (n.toList, rest) := word_append ⟨c, cs, h1, h2, h3⟩ hr
    have h5 : digits (n.toList ++ rest) = none := by rw [h1]; exact digits_word h2
    simp only [Arith.encode, atomRule, h4, h5, String.ofList_toList]
  | int c =>
    obtain ⟨n, rfl⟩ := Int.eq_ofNat_of_zero_le h.1
    have hn : n ≤ 2147483647 := by have := h.2; omega
    show atomRule (Nat.toDigits 10 n ++ rest) = _
    simp only [atomRule, digits_append hr, readInt_toDigits hn]
    rfl
  | _ => exact h.elim

theorem Arith.Writable.term {a : Arith} (h : a.Writable) {rest : Chars} (hr : Ends rest) (rule : Rule (Res Arith)) :
    orElse (parens rule) atomRule (a.encode ++ rest) = some (.ok a, rest) := by
  obtain ⟨c, cs, h1, h2, h3⟩ := h.head
  have hp : parens rule (a.encode ++ rest) = none := by
    rw [h1]; simp [parens, lit, Ne.symm h3]
  simp only [orElse, hp, h.atom hr]

/-- A written arithmetic expression is read back. -/
theorem Arith.reads {e : Arith} (h : e.Flat 1) {rest : Chars} (hr : Ends rest) (hend : arithOp (skip rest) = none) (n : Nat) :
    arithRule (n + 1) (e.encode ++ rest) = some (.ok e, rest) := by
  have key := infixRule_reads (op := arithOp) (prec := AOp.prec) (mk := AOp.mk)
    (term := orElse (parens (arithRule n)) atomRule) (leafText := Arith.encode) (opText := AOp.text)
    (sem := Except.ok) (Stop := Ends) e.tree (Arith.tree_fits h) (by intro o; cases o <;> simp [AOp.text])
    (fun a ha rest hr => (Arith.tree_leaves h a ha).term hr _)
    (by
      intro o a ha rest
      obtain ⟨c, cs, h1, h2, h3⟩ := (Arith.tree_leaves h a ha).head
      refine ⟨a.encode ++ rest, ?_, by rw [h1]; exact skip_word h2⟩
      cases o <;> simp [AOp.text, skip, arithOp, oneOf, lit])
    (by intro o rest; cases o <;> exact ends_cons (by decide))
    rest hr hend
  rw [Arith.tree_write, Arith.tree_val] at key
  exact key

/-- The text of an expression that needs no parentheses begins with a letter or digit. -/
theorem Arith.Flat.head {e : Arith} {p : Nat} (h : e.Flat p) : ∃ c cs, e.encode = c :: cs ∧ isWord c = true := by
  have h1 := e.tree.write_eq Arith.encode AOp.text
  rw [Arith.tree_write] at h1
  obtain ⟨c, cs, h2, h3, _⟩ := (Arith.tree_leaves h _ e.tree.leaf_first).head
  exact ⟨c, _, by rw [h1, h2]; rfl, h3⟩

/-! ## Guards -/

/-- The guard as a tree of operators -/
def BoolE.tree : BoolE → OpTree BoolE BOp
  | .and l r => .node l.tree .and r.tree
  | .or l r => .node l.tree .or r.tree
  | g => .leaf g

/-- The text of an operator -/
def BOp.text : BOp → Chars
  | .and => [' ', '&', '&', ' ']
  | .or => [' ', '|', '|', ' ']

/-- A comparison or truth value that can be written -/
def BoolE.Writable : BoolE → Prop
  | .le l r | .ge l r | .lt l r | .gt l r | .eq l r => l.Flat 1 ∧ r.Flat 1
  | .bool _ => True
  | _ => False

theorem BoolE.tree_write (g : BoolE) : g.tree.write BoolE.encode BOp.text = g.encode := by
  induction g with
  | and l r ihl ihr => simp [BoolE.tree, OpTree.write, BoolE.encode, ihl, ihr, BOp.text]
  | or l r ihl ihr => simp [BoolE.tree, OpTree.write, BoolE.encode, ihl, ihr, BOp.text]
  | _ => rfl

theorem BoolE.tree_fits {g : BoolE} {p : Nat} (h : g.Flat p) : g.tree.Fits BOp.prec p := by
  induction g generalizing p with
  | and l r ihl ihr => exact ⟨h.1, ihl h.2.1, ihr h.2.2⟩
  | or l r ihl ihr => exact ⟨h.1, ihl h.2.1, ihr h.2.2⟩
  | _ => trivial

theorem BoolE.tree_leaves {g : BoolE} {p : Nat} (h : g.Flat p) : ∀ a, g.tree.Leaf a → a.Writable := by
  induction g generalizing p with
  | and l r ihl ihr => rintro a (ha | ha); exacts [ihl h.2.1 a ha, ihr h.2.2 a ha]
  | or l r ihl ihr => rintro a (ha | ha); exacts [ihl h.2.1 a ha, ihr h.2.2 a ha]
  | _ => rintro a rfl; exact h

theorem BoolE.tree_val (g : BoolE) :
    (g.tree.map Except.ok).val (fun l o x => lift2 (BOp.mk o) l x) = (.ok g : Res BoolE) := by
  induction g with
  | and l r ihl ihr => simp [BoolE.tree, OpTree.map, OpTree.val, ihl, ihr]; rfl
  | or l r ihl ihr => simp [BoolE.tree, OpTree.map, OpTree.val, ihl, ihr]; rfl
  | _ => rfl

/-- What may follow a comparison or truth value: nothing, or a space and a Boolean operator -/
def AfterGuard (rest : Chars) : Prop := rest = [] ∨ ∃ (o : BOp) (r : Chars), rest = o.text ++ r

theorem AfterGuard.ends {rest : Chars} (h : AfterGuard rest) : Ends rest := by
  rcases h with rfl | ⟨o, r, rfl⟩
  · exact ends_nil
  · cases o <;> exact ends_cons (by decide)

theorem AfterGuard.arith {rest : Chars} (h : AfterGuard rest) : arithOp (skip rest) = none := by
  rcases h with rfl | ⟨o, r, rfl⟩
  · rfl
  · cases o <;> simp [BOp.text, skip, arithOp, oneOf, lit]

theorem AfterGuard.compare {rest : Chars} (h : AfterGuard rest) : compareOp (skip rest) = none := by
  rcases h with rfl | ⟨o, r, rfl⟩
  · rfl
  · cases o <;> simp [BOp.text, skip, compareOp, oneOf, lit]

/-- The text of a comparison operator -/
def COp.text : COp → Chars
  | .geq => ['>', '=']
  | .leq => ['<', '=']
  | .eq => ['=', '=']
  | .lt => ['<']
  | .gt => ['>']

theorem comparison_reads (o : COp) {l r : Arith} (hl : l.Flat 1) (hr : r.Flat 1) {rest : Chars} (h : AfterGuard rest) :
    comparisonRule (l.encode ++ (o.text ++ (r.encode ++ rest))) = some (.ok (o.mk l r), rest) := by
  obtain ⟨c, cs, hc, hw⟩ := hr.head
  have hne : c ≠ '=' := by rintro rfl; exact absurd hw (by decide)
  have h1 := Arith.reads hl (rest := o.text ++ (r.encode ++ rest))
    (by cases o <;> exact ends_cons (by decide)) (by cases o <;> simp [COp.text, skip, arithOp, oneOf, lit])
    (l.encode ++ (o.text ++ (r.encode ++ rest))).length
  have h2 : compareOp (skip (o.text ++ (r.encode ++ rest))) = some (o, r.encode ++ rest) := by
    rw [hc]
    cases o <;> simp [COp.text, skip, compareOp, oneOf, lit, hne.symm]
  have h3 : skip (r.encode ++ rest) = r.encode ++ rest := by rw [hc]; exact skip_word hw
  have h4 := Arith.reads hr h.ends h.arith (r.encode ++ rest).length
  simp only [comparisonRule, h1, Option.bind_eq_bind, Option.bind_some, h2, h3, h4]
  rfl

theorem BoolE.Writable.cmp {g : BoolE} (h : g.Writable) :
    (∃ b, g = .bool b) ∨ ∃ (o : COp) (l r : Arith), g = o.mk l r ∧ l.Flat 1 ∧ r.Flat 1 ∧
      g.encode = l.encode ++ (o.text ++ r.encode) := by
  cases g with
  | bool b => exact .inl ⟨b, rfl⟩
  | le l r => exact .inr ⟨.leq, l, r, rfl, h.1, h.2, by simp [BoolE.encode, COp.text]⟩
  | ge l r => exact .inr ⟨.geq, l, r, rfl, h.1, h.2, by simp [BoolE.encode, COp.text]⟩
  | lt l r => exact .inr ⟨.lt, l, r, rfl, h.1, h.2, by simp [BoolE.encode, COp.text]⟩
  | gt l r => exact .inr ⟨.gt, l, r, rfl, h.1, h.2, by simp [BoolE.encode, COp.text]⟩
  | eq l r => exact .inr ⟨.eq, l, r, rfl, h.1, h.2, by simp [BoolE.encode, COp.text]⟩
  | _ => exact h.elim

theorem BoolE.Writable.head {g : BoolE} (h : g.Writable) : ∃ c cs, g.encode = c :: cs ∧ isWord c = true := by
  rcases h.cmp with ⟨b, rfl⟩ | ⟨o, l, r, _, hl, _, he⟩
  · cases b
    · exact ⟨'f', _, rfl, by decide⟩
    · exact ⟨'t', _, rfl, by decide⟩
  · obtain ⟨c, cs, h1, h2⟩ := hl.head
    exact ⟨c, _, by rw [he, h1]; rfl, h2⟩

theorem BoolE.Writable.term {g : BoolE} (h : g.Writable) {rest : Chars} (hr : AfterGuard rest) (rule : Rule (Res BoolE)) :
    orElse comparisonRule (orElse boolRule rule) (g.encode ++ rest) = some (.ok g, rest) := by
  rcases h.cmp with ⟨b, rfl⟩ | ⟨o, l, r, rfl, hl, hr', he⟩
  · have h1 : comparisonRule ((BoolE.bool b).encode ++ rest) = none := by
      have hf : (Arith.var (if b then "true" else "false")).Flat 1 := by
        cases b
        · exact ⟨'f', _, rfl, by decide, by decide⟩
        · exact ⟨'t', _, rfl, by decide, by decide⟩
      have he : (BoolE.bool b).encode = (Arith.var (if b then "true" else "false")).encode := by cases b <;> rfl
      have := Arith.reads hf hr.ends hr.arith ((BoolE.bool b).encode ++ rest).length
      rw [← he] at this
      simp only [comparisonRule, this, Option.bind_eq_bind, Option.bind_some, hr.compare, Option.bind_none]
    have h2 : boolRule ((BoolE.bool b).encode ++ rest) = some (.ok (.bool b), rest) := by
      cases b
      · simp [boolRule, BoolE.encode, lit]
      · simp [boolRule, BoolE.encode, lit]
    simp only [orElse, h1, h2]
  · have h1 := comparison_reads o hl hr' hr
    have he' : (o.mk l r).encode ++ rest = l.encode ++ (o.text ++ (r.encode ++ rest)) := by rw [he]; simp
    simp only [orElse, he', h1]

theorem boolOp_text (o : BOp) (cs : Chars) (h : skip cs = cs) :
    ∃ r, boolOp (skip (o.text ++ cs)) = some (o, r) ∧ skip r = cs := by
  cases o
  · exact ⟨' ' :: cs, by simp [BOp.text, skip, boolOp, oneOf, lit], by simpa [skip] using h⟩
  · exact ⟨' ' :: cs, by simp [BOp.text, skip, boolOp, oneOf, lit], by simpa [skip] using h⟩

/-- A written guard is read back. -/
theorem BoolE.reads {g : BoolE} (h : g.Flat 1) (n : Nat) : boolExprRule (n + 1) g.encode = some (.ok g, []) := by
  have key := infixRule_reads (op := boolOp) (prec := BOp.prec) (mk := BOp.mk)
    (term := orElse comparisonRule (orElse boolRule (parens (boolExprRule n)))) (leafText := BoolE.encode)
    (opText := BOp.text) (sem := Except.ok) (Stop := AfterGuard) g.tree (BoolE.tree_fits h)
    (by intro o; cases o <;> simp [BOp.text])
    (fun a ha rest hr => (BoolE.tree_leaves h a ha).term hr _)
    (by
      intro o a ha rest
      obtain ⟨c, cs, h1, h2⟩ := (BoolE.tree_leaves h a ha).head
      exact boolOp_text o _ (by rw [h1]; exact skip_word h2))
    (fun o rest => .inr ⟨o, rest, rfl⟩)
    [] (.inl rfl) rfl
  rw [BoolE.tree_write, BoolE.tree_val, List.append_nil] at key
  exact key

theorem BoolE.Flat.head {g : BoolE} {p : Nat} (h : g.Flat p) : ∃ c cs, g.encode = c :: cs ∧ isWord c = true := by
  have h1 := g.tree.write_eq BoolE.encode BOp.text
  rw [BoolE.tree_write] at h1
  obtain ⟨c, cs, h2, h3⟩ := (BoolE.tree_leaves h _ g.tree.leaf_first).head
  exact ⟨c, _, by rw [h1, h2]; rfl, h3⟩

/-- **C04 (part).** A guard that needs no parentheses, uses names that can be written and no negative numbers is read back
unchanged after it was written.  Not covered, and false: the other guards, see `C04_violated_meaning`,
`C04_violated_difference` and `C04_violated_unreadable`. -/
theorem C04_roundtrip_partial {g : BoolE} (h : g.Flat 1) : parseGuard g.encode = .ok g := by
  obtain ⟨c, cs, h1, h2⟩ := h.head
  have hs : skip g.encode = g.encode := by rw [h1]; exact skip_word h2
  simp only [parseGuard, guardRule, hs, BoolE.reads h]
  rfl

/-! ## Guards that were read from a text without parentheses -/

theorem Arith.Flat.mono {e : Arith} {p q : Nat} (hpq : p ≤ q) (h : e.Flat q) : e.Flat p := by
  cases e with
  | add l r => exact ⟨hpq.trans h.1, h.2⟩
  | dif l r => exact ⟨hpq.trans h.1, h.2⟩
  | mul l r => exact ⟨hpq.trans h.1, h.2⟩
  | div l r => exact ⟨hpq.trans h.1, h.2⟩
  | mod l r => exact ⟨hpq.trans h.1, h.2⟩
  | _ => exact h

theorem BoolE.Flat.mono {g : BoolE} {p q : Nat} (hpq : p ≤ q) (h : g.Flat q) : g.Flat p := by
  cases g with
  | and l r => exact ⟨hpq.trans h.1, h.2⟩
  | or l r => exact ⟨hpq.trans h.1, h.2⟩
  | _ => exact h

theorem Arith.Writable.flat {e : Arith} (h : e.Writable) (p : Nat) : e.Flat p := by
  cases e with
  | var n => exact h
  | int c => exact h
  | _ => exact h.elim

theorem BoolE.Writable.flat {g : BoolE} (h : g.Writable) (p : Nat) : g.Flat p := by
  cases g with
  | and l r => exact h.elim
  | or l r => exact h.elim
  | _ => exact h

theorem lift2_ok {α β : Type} {f : α → α → β} {l r : Res α} {e : β} (h : lift2 f l r = .ok e) :
    ∃ a b, l = .ok a ∧ r = .ok b ∧ e = f a b := by
  cases l with
  | error x => cases h
  | ok a =>
    cases r with
    | error x => cases h
    | ok b => cases h; exact ⟨a, b, rfl, rfl, rfl⟩

theorem atom_shrinks : Shrinks atomRule := by
  intro cs x r h
  simp only [atomRule] at h
  split at h
  · rename_i ds r' hd; cases h; exact digits_shrinks _ _ _ hd
  · split at h
    · rename_i w r' hw; cases h; exact word_shrinks _ _ _ hw
    · cases h

theorem arithRule_shrinks (n : Nat) : Shrinks (arithRule n) := by
  induction n with
  | zero => intro cs x r h; cases h
  | succ n ih => exact infixRule_shrinks (oneOf_shrinks _) (orElse_shrinks (parens_shrinks ih) atom_shrinks)

theorem comparison_shrinks : Shrinks comparisonRule := by
  intro cs x r h
  simp only [comparisonRule, Option.bind_eq_bind, Option.bind_eq_some_iff, Prod.exists, Option.some.injEq,
    Prod.mk.injEq] at h
  obtain ⟨l, r1, h1, o, r2, h2, y, r3, h3, _, rfl⟩ := h
  exact (arithRule_shrinks _ _ _ _ h3).trans ((skip_suffix _).trans ((oneOf_shrinks _ _ _ _ h2).trans
    ((skip_suffix _).trans (arithRule_shrinks _ _ _ _ h1))))

theorem bool_shrinks : Shrinks boolRule := by
  intro cs x r h
  simp only [boolRule] at h
  split at h
  · rename_i r' hr; cases h; exact lit_suffix hr
  · split at h
    · rename_i r' hr; cases h; exact lit_suffix hr
    · cases h

theorem boolExprRule_shrinks (n : Nat) : Shrinks (boolExprRule n) := by
  induction n with
  | zero => intro cs x r h; cases h
  | succ n ih =>
    exact infixRule_shrinks (oneOf_shrinks _)
      (orElse_shrinks comparison_shrinks (orElse_shrinks bool_shrinks (parens_shrinks ih)))

/-- What `word` reads is a name. -/
theorem word_isName {cs w r : Chars} (h : word cs = some (w, r)) : IsName (String.ofList w) := by
  cases cs with
  | nil => cases h
  | cons c cs =>
    simp only [word] at h
    split at h
    · rename_i hc
      cases h
      exact ⟨c, _, String.toList_ofList, hc, fun d hd => (List.mem_takeWhile_imp hd : isWord d = true)⟩
    · cases h

theorem atom_writable {cs r : Chars} {x : Res Arith} (h : atomRule cs = some (x, r)) : ∀ e, x = .ok e → e.Writable := by
  simp only [atomRule] at h
  split at h
  · cases h
    rintro e he
    obtain ⟨k, hk, he⟩ := bind_ok he
    cases he
    simp only [readInt] at hk
    split at hk
    · rename_i hle
      cases hk
      exact ⟨Int.natCast_nonneg _, by exact_mod_cast hle⟩
    · cases hk
  · split at h
    · rename_i w r' hw
      cases h
      rintro e he
      cases he
      exact word_isName hw
    · cases h

/-- An arithmetic expression read from a text without parentheses needs none. -/
theorem arithRule_flat {n : Nat} {cs r : Chars} {x : Res Arith} (hcs : '(' ∉ cs) (h : arithRule n cs = some (x, r)) :
    ∀ e, x = .ok e → e.Flat 1 := by
  cases n with
  | zero => cases h
  | succ n =>
    obtain ⟨first, rest, rfl, hf, hr⟩ := infixRule_all (Q := fun x => ∀ e, x = .ok e → e.Writable) (oneOf_shrinks _)
      (orElse_shrinks (parens_shrinks (arithRule_shrinks n)) atom_shrinks) h (by
        intro cs' t' r' hsub ht
        simp only [orElse, parens_none fun hm => hcs (hsub.subset hm)] at ht
        exact atom_writable ht)
    refine prattParse_groups (P := fun p (x : Res Arith) => ∀ e, x = .ok e → e.Flat p)
      (Q := fun x => ∀ e, x = .ok e → e.Writable) ?_ ?_ ?_ hf hr
    · intro l o r hl hr e he
      obtain ⟨a, b, rfl, rfl, rfl⟩ := lift2_ok he
      have h1 := hl a rfl
      have h2 := hr b rfl
      cases o <;> exact ⟨Nat.le_refl _, h1, h2⟩
    · exact fun p q x hpq hx e he => (hx e he).mono hpq
    · exact fun x hx p e he => (hx e he).flat p

theorem comparison_writable {cs r : Chars} {x : Res BoolE} (hcs : '(' ∉ cs) (h : comparisonRule cs = some (x, r)) :
    ∀ g, x = .ok g → g.Writable := by
  simp only [comparisonRule, Option.bind_eq_bind, Option.bind_eq_some_iff, Prod.exists, Option.some.injEq,
    Prod.mk.injEq] at h
  obtain ⟨l, r1, h1, o, r2, h2, y, r3, h3, rfl, rfl⟩ := h
  intro g hg
  obtain ⟨a, b, rfl, rfl, rfl⟩ := lift2_ok hg
  have ha := arithRule_flat hcs h1 a rfl
  have hb := arithRule_flat (fun hm => hcs (((skip_suffix _).trans ((oneOf_shrinks _ _ _ _ h2).trans
    ((skip_suffix _).trans (arithRule_shrinks _ _ _ _ h1)))).subset hm)) h3 b rfl
  cases o <;> exact ⟨ha, hb⟩

theorem bool_writable {cs r : Chars} {x : Res BoolE} (h : boolRule cs = some (x, r)) : ∀ g, x = .ok g → g.Writable := by
  simp only [boolRule] at h
  split at h
  · cases h; rintro g hg; cases hg; trivial
  · split at h
    · cases h; rintro g hg; cases hg; trivial
    · cases h

/-- A guard read from a text without parentheses needs none. -/
theorem boolExprRule_flat {n : Nat} {cs r : Chars} {x : Res BoolE} (hcs : '(' ∉ cs) (h : boolExprRule n cs = some (x, r)) :
    ∀ g, x = .ok g → g.Flat 1 := by
  cases n with
  | zero => cases h
  | succ n =>
    obtain ⟨first, rest, rfl, hf, hr⟩ := infixRule_all (Q := fun x => ∀ g, x = .ok g → g.Writable) (oneOf_shrinks _)
      (orElse_shrinks comparison_shrinks (orElse_shrinks bool_shrinks (parens_shrinks (boolExprRule_shrinks n)))) h (by
        intro cs' t' r' hsub ht
        have hcs' : '(' ∉ cs' := fun hm => hcs (hsub.subset hm)
        simp only [orElse] at ht
        split at ht
        · rename_i y hy
          cases ht
          exact comparison_writable hcs' hy
        · split at ht
          · rename_i y hy
            cases ht
            exact bool_writable hy
          · rw [parens_none hcs'] at ht; cases ht)
    refine prattParse_groups (P := fun p (x : Res BoolE) => ∀ e, x = .ok e → e.Flat p)
      (Q := fun x => ∀ e, x = .ok e → e.Writable) ?_ ?_ ?_ hf hr
    · intro l o r hl hr e he
      obtain ⟨a, b, rfl, rfl, rfl⟩ := lift2_ok he
      have h1 := hl a rfl
      have h2 := hr b rfl
      cases o <;> exact ⟨Nat.le_refl _, h1, h2⟩
    · exact fun p q x hpq hx e he => (hx e he).mono hpq
    · exact fun x hx p e he => (hx e he).flat p

/-- **C04 for models written without parentheses.** A guard that was read from a text without parentheses is read back
unchanged after it was written. -/
theorem C04_text_partial {cs : Chars} {g : BoolE} (hcs : '(' ∉ cs) (h : parseGuard cs = .ok g) :
    parseGuard g.encode = .ok g := by
  refine C04_roundtrip_partial ?_
  simp only [parseGuard, guardRule] at h
  split at h
  · cases h
  · cases h
  · rename_i x hx
    subst h
    split at hx
    · rename_i e r hr
      split at hx
      · cases hx
        exact boolExprRule_flat (fun hm => hcs ((skip_suffix _).subset hm)) hr g rfl
      · cases hx
    · split at hx <;> cases hx

/-! ## Guards with conjunctions and disjunctions nested to the right -/

/-- The conjunction of two guards, grouped to the left -/
def BoolE.joinAnd (l : BoolE) : BoolE → BoolE
  | .and a b => .and (joinAnd l a) b
  | g => .and l g

/-- The disjunction of two guards, grouped to the left -/
def BoolE.joinOr (l : BoolE) : BoolE → BoolE
  | .or a b => .or (joinOr l a) b
  | g => .or l g

/-- The guard with conjunctions and disjunctions grouped to the left -/
def BoolE.leftNested : BoolE → BoolE
  | .and l r => joinAnd l.leftNested r.leftNested
  | .or l r => joinOr l.leftNested r.leftNested
  | g => g

/-- Like `BoolE.Flat`, but conjunctions of conjunctions and disjunctions of disjunctions may group in any way. -/
def BoolE.Groups : Nat → BoolE → Prop
  | p, .and l r => p ≤ 3 ∧ l.Groups 3 ∧ r.Groups 3
  | p, .or l r => p ≤ 4 ∧ l.Groups 4 ∧ r.Groups 4
  | _, .le l r | _, .ge l r | _, .lt l r | _, .gt l r | _, .eq l r => l.Flat 1 ∧ r.Flat 1
  | _, .bool _ => True

theorem BoolE.joinAnd_spec (l : BoolE) (hl : l.Flat 3) : ∀ r : BoolE, r.Flat 3 →
    (joinAnd l r).Flat 3 ∧ (joinAnd l r).encode = l.encode ++ [' ', '&', '&', ' '] ++ r.encode ∧
      ∀ d v, Holds d v (joinAnd l r) ↔ Holds d v l ∧ Holds d v r
  | .and a b, hr => by
    obtain ⟨h1, h2, h3⟩ := joinAnd_spec l hl a hr.2.1
    refine ⟨⟨Nat.le_refl _, h1, hr.2.2⟩, by simp [joinAnd, BoolE.encode, h2], fun d v => ?_⟩
    simp only [joinAnd, Holds, h3, and_assoc]
  | .or a b, hr => ⟨⟨Nat.le_refl _, hl, ⟨Nat.le_refl _, hr.2⟩⟩, rfl, fun _ _ => Iff.rfl⟩
  | .le a b, hr => ⟨⟨Nat.le_refl _, hl, hr⟩, rfl, fun _ _ => Iff.rfl⟩
  | .ge a b, hr => ⟨⟨Nat.le_refl _, hl, hr⟩, rfl, fun _ _ => Iff.rfl⟩
  | .lt a b, hr => ⟨⟨Nat.le_refl _, hl, hr⟩, rfl, fun _ _ => Iff.rfl⟩
  | .gt a b, hr => ⟨⟨Nat.le_refl _, hl, hr⟩, rfl, fun _ _ => Iff.rfl⟩
  | .eq a b, hr => ⟨⟨Nat.le_refl _, hl, hr⟩, rfl, fun _ _ => Iff.rfl⟩
  | .bool b, hr => ⟨⟨Nat.le_refl _, hl, hr⟩, rfl, fun _ _ => Iff.rfl⟩

theorem BoolE.joinOr_spec (l : BoolE) (hl : l.Flat 4) : ∀ r : BoolE, r.Flat 4 →
    (joinOr l r).Flat 4 ∧ (joinOr l r).encode = l.encode ++ [' ', '|', '|', ' '] ++ r.encode ∧
      ∀ d v, Holds d v (joinOr l r) ↔ Holds d v l ∨ Holds d v r
  | .or a b, hr => by
    obtain ⟨h1, h2, h3⟩ := joinOr_spec l hl a hr.2.1
    refine ⟨⟨Nat.le_refl _, h1, hr.2.2⟩, by simp [joinOr, BoolE.encode, h2], fun d v => ?_⟩
    simp only [joinOr, Holds, h3, or_assoc]
  | .and a b, hr => absurd hr.1 (by decide)
  | .le a b, hr => ⟨⟨Nat.le_refl _, hl, hr⟩, rfl, fun _ _ => Iff.rfl⟩
  | .ge a b, hr => ⟨⟨Nat.le_refl _, hl, hr⟩, rfl, fun _ _ => Iff.rfl⟩
  | .lt a b, hr => ⟨⟨Nat.le_refl _, hl, hr⟩, rfl, fun _ _ => Iff.rfl⟩
  | .gt a b, hr => ⟨⟨Nat.le_refl _, hl, hr⟩, rfl, fun _ _ => Iff.rfl⟩
  | .eq a b, hr => ⟨⟨Nat.le_refl _, hl, hr⟩, rfl, fun _ _ => Iff.rfl⟩
  | .bool b, hr => ⟨⟨Nat.le_refl _, hl, hr⟩, rfl, fun _ _ => Iff.rfl⟩

theorem BoolE.leftNested_spec {g : BoolE} {p : Nat} (h : g.Groups p) :
    g.leftNested.Flat p ∧ g.leftNested.encode = g.encode ∧ ∀ d v, Holds d v g.leftNested ↔ Holds d v g := by
  induction g generalizing p with
  | and l r ihl ihr =>
    obtain ⟨a1, a2, a3⟩ := ihl h.2.1
    obtain ⟨b1, b2, b3⟩ := ihr h.2.2
    obtain ⟨c1, c2, c3⟩ := BoolE.joinAnd_spec _ a1 _ b1
    exact ⟨c1.mono h.1, by rw [leftNested, c2, a2, b2]; rfl, fun d v => by rw [leftNested, c3, a3, b3]; rfl⟩
  | or l r ihl ihr =>
    obtain ⟨a1, a2, a3⟩ := ihl h.2.1
    obtain ⟨b1, b2, b3⟩ := ihr h.2.2
    obtain ⟨c1, c2, c3⟩ := BoolE.joinOr_spec _ a1 _ b1
    exact ⟨c1.mono h.1, by rw [leftNested, c2, a2, b2]; rfl, fun d v => by rw [leftNested, c3, a3, b3]; rfl⟩
  | _ => exact ⟨h, rfl, fun _ _ => Iff.rfl⟩

/-- **C04 (part): meaning.** A guard that is a conjunction of disjunctions of comparisons, grouped in any way, has the same
meaning after it was written and read back. -/
theorem C04_meaning_partial {g : BoolE} (h : g.Groups 1) :
    ∃ g', parseGuard g.encode = .ok g' ∧ ∀ d v, Holds d v g' ↔ Holds d v g := by
  obtain ⟨h1, h2, h3⟩ := BoolE.leftNested_spec h
  exact ⟨g.leftNested, by rw [← h2]; exact C04_roundtrip_partial h1, h3⟩

/-! ## Guards generated by the tool -/

/-- The constraint can be written: lower bounds are not negative, upper bounds neither, and a difference has no negative
bound. -/
def Constr.Printable (k : Constr) : Prop :=
  let b : Int := match k.ineq with
    | .LE b => b
    | .LS b => b
  if k.i = 0 then -2147483647 ≤ b ∧ b ≤ 0 else 0 ≤ b ∧ b ≤ 2147483647

theorem varFromNaming_name {naming : List (Nat × String)} (hn : ∀ p ∈ naming, IsName p.2) {i : Nat} {x : Arith}
    (h : varFromNaming naming i = .ok x) : x.Writable := by
  obtain ⟨n, h1, h2⟩ := bind_ok h
  cases h2
  cases hl : naming.lookup i with
  | none => rw [hl] at h1; cases h1
  | some m =>
    rw [hl] at h1; cases h1
    exact hn (i, n) (lookup_mem hl)

theorem fromConstraint_flat {naming : List (Nat × String)} (hn : ∀ p ∈ naming, IsName p.2) {k : Constr} {g : BoolE}
    (hk : k.Printable) (h : fromConstraint naming k = .ok g) : g.Writable := by
  obtain ⟨i, j, b⟩ := k
  cases i with
  | zero =>
    cases j with
    | zero => cases h
    | succ j =>
      obtain ⟨x, hx, h⟩ := bind_ok h
      obtain ⟨c, hc, h⟩ := bind_ok h
      have hx' := varFromNaming_name hn hx
      have hcw : (Arith.int c).Writable := by
        cases b <;>
          (simp only [chk] at hc
           split at hc <;> cases hc
           simp only [Constr.Printable, if_true] at hk
           constructor <;> omega)
      split at h <;> cases h <;> exact ⟨hx'.flat _, hcw.flat _⟩
  | succ i =>
    cases b with
    | LE b =>
      have hb : (Arith.int b).Writable := by simpa [Constr.Printable, Arith.Writable] using hk
      cases j with
      | zero =>
        obtain ⟨x, hx, h⟩ := bind_ok h
        cases h
        exact ⟨(varFromNaming_name hn hx).flat _, hb.flat _⟩
      | succ j =>
        obtain ⟨x, hx, h⟩ := bind_ok h
        obtain ⟨y, hy, h⟩ := bind_ok h
        have hx' := varFromNaming_name hn hx
        have hy' := varFromNaming_name hn hy
        split at h
        · cases h; exact ⟨hx'.flat _, hy'.flat _⟩
        · cases h; exact ⟨⟨Nat.le_refl _, hx'.flat _, hy'.flat _⟩, hb.flat _⟩
    | LS b =>
      have hb : (Arith.int b).Writable := by simpa [Constr.Printable, Arith.Writable] using hk
      cases j with
      | zero =>
        obtain ⟨x, hx, h⟩ := bind_ok h
        cases h
        exact ⟨(varFromNaming_name hn hx).flat _, hb.flat _⟩
      | succ j =>
        obtain ⟨x, hx, h⟩ := bind_ok h
        obtain ⟨y, hy, h⟩ := bind_ok h
        have hx' := varFromNaming_name hn hx
        have hy' := varFromNaming_name hn hy
        split at h
        · cases h; exact ⟨hx'.flat _, hy'.flat _⟩
        · cases h; exact ⟨⟨Nat.le_refl _, hx'.flat _, hy'.flat _⟩, hb.flat _⟩

theorem fromConjLoop_flat {naming : List (Nat × String)} (hn : ∀ p ∈ naming, IsName p.2) (cs : List Constr)
    (hk : ∀ k ∈ cs, k.Printable) : ∀ {acc r : Option BoolE}, (∀ g, acc = some g → g.Flat 3) →
    fromConjLoop naming acc cs = .ok r → ∀ g, r = some g → g.Flat 3 := by
  induction cs with
  | nil => intro acc r ha h; cases h; exact ha
  | cons k cs ih =>
    intro acc r ha h
    obtain ⟨e, he, h⟩ := bind_ok h
    have hw := fromConstraint_flat hn (hk k (List.mem_cons_self ..)) he
    have ih' := fun {acc r} => @ih (fun k' hk' => hk k' (List.mem_cons_of_mem _ hk')) acc r
    cases acc with
    | none => exact ih' (by rintro g hg; cases hg; exact hw.flat _) h
    | some a => exact ih' (by rintro g hg; cases hg; exact ⟨Nat.le_refl _, ha a rfl, hw.flat _⟩) h

/-- **C04 (part): generated guards.** A guard the tool generates from one conjunction of constraints is read back unchanged
after it was written, if the names can be written and no difference of clocks has a negative bound.  Not covered, and false:
sets that need more than one conjunction (`C04_violated_meaning`), negative bounds on differences
(`C04_violated_unreadable`). -/
theorem C04_generated_partial {c : Conj} {naming : List (String × Nat)} {g : BoolE} (hn : ∀ p ∈ naming, IsName p.1)
    (hk : ∀ k ∈ c, k.Printable) (h : fromDisjunction [c] naming = .ok (some g)) : parseGuard g.encode = .ok g := by
  have hn' : ∀ p ∈ invertNaming naming, IsName p.2 := by
    intro p hp
    obtain ⟨q, hq, rfl⟩ := List.mem_map.1 hp
    exact hn q (List.mem_reverse.1 hq)
  refine C04_roundtrip_partial ?_
  replace h : fromConjunction (invertNaming naming) c = .ok (some g) := h
  match c, h, hk with
  | [], h, _ => cases h
  | [k], h, hk =>
    obtain ⟨e, he, h⟩ := bind_ok h
    cases h
    exact (fromConstraint_flat hn' (hk k (List.mem_cons_self ..)) he).flat _
  | k :: k' :: cs, h, hk =>
    have h' : fromConjLoop (invertNaming naming) none (k :: k' :: cs) = .ok (some g) := h
    exact (fromConjLoop_flat hn' _ hk (by intro g hg; cases hg) h' g rfl).mono (by decide)

/-! ## Counterexamples -/

/-- **C04 is violated.** The guard generated for the set `1 ≤ x ≤ 2 or y ≥ 5` is written as
`x>=1 && x<=2 || y>=5` and read back as `x ≥ 1 and (x ≤ 2 or y ≥ 5)`: with `x = 0` and `y = 6` it no longer holds. -/
theorem C04_violated_meaning : ∃ (s : Disj) (naming : List (String × Nat)) (g g' : BoolE) (d : Decls) (v : Val),
    fromDisjunction s naming = .ok (some g) ∧ parseGuard g.encode = .ok g' ∧ Holds d v g ∧ ¬ Holds d v g' := by
  let x : Arith := .var "x"
  let y : Arith := .var "y"
  refine ⟨[[⟨0, 1, .LE (-1)⟩, ⟨1, 0, .LE 2⟩], [⟨0, 2, .LE (-5)⟩]], [("x", 1), ("y", 2)],
    .or (.and (.ge x (.int 1)) (.le x (.int 2))) (.ge y (.int 5)),
    .and (.ge x (.int 1)) (.or (.le x (.int 2)) (.ge y (.int 5))), ⟨[], [("x", 1), ("y", 2)]⟩,
    fun i => if i = 2 then 6 else 0, by decide +kernel, by decide +kernel, ?_, ?_⟩
  · right
    exact ⟨6, 5, by simp [value, List.lookup, y], by simp [value], by norm_num⟩
  · rintro ⟨⟨a, b, h1, h2, h3⟩, _⟩
    simp [value, List.lookup, x] at h1 h2
    subst h1; subst h2
    norm_num at h3

/-- **C04 is violated.** A bound computed from a difference loses its parentheses: `x<=5-(3-1)` is written as `x<=5-3-1`. -/
theorem C04_violated_difference : ∃ (cs : Chars) (g g' : BoolE) (d : Decls) (v : Val),
    parseGuard cs = .ok g ∧ parseGuard g.encode = .ok g' ∧ Holds d v g ∧ ¬ Holds d v g' := by
  refine ⟨['x', '<', '=', '5', '-', '(', '3', '-', '1', ')'],
    .le (.var "x") (.dif (.int 5) (.dif (.int 3) (.int 1))), .le (.var "x") (.dif (.dif (.int 5) (.int 3)) (.int 1)),
    ⟨[], [("x", 1)]⟩, fun _ => 3, by decide +kernel, by decide +kernel, ?_, ?_⟩
  · exact ⟨3, 5 - (3 - 1), by simp [value, List.lookup], by simp [value], by norm_num⟩
  · rintro ⟨a, b, h1, h2, h3⟩
    simp [value, List.lookup] at h1 h2
    subst h1; subst h2
    norm_num at h3

/-- **C04 is violated.** The guard generated for the set `x - y ≤ -3` cannot be read back: the grammar has no negative
numbers. -/
theorem C04_violated_unreadable : ∃ (s : Disj) (naming : List (String × Nat)) (g : BoolE) (m : String),
    fromDisjunction s naming = .ok (some g) ∧ g.encode = "x-y<=-3".toList ∧ parseGuard g.encode = .error (.err m) :=
  ⟨[[⟨1, 2, .LE (-3)⟩]], [("x", 1), ("y", 2)], .le (.dif (.var "x") (.var "y")) (.int (-3)),
    "Could not parse as rule", by decide +kernel, by decide +kernel, by decide +kernel⟩

/-! ## Non-vacuity -/

/-- A guard of every allowed kind: `a_1+2*n-x<=7 && (x<y || true) && y%3==0` -/
def exFlatGuard : BoolE :=
  .and (.and (.le (.dif (.add (.var "a_1") (.mul (.int 2) (.var "n"))) (.var "x")) (.int 7))
    (.or (.lt (.var "x") (.var "y")) (.bool true))) (.eq (.mod (.var "y") (.int 3)) (.int 0))

theorem isName_of {s : String} {c : Char} {cs : List Char} (h : s.toList = c :: cs)
    (hc : (c.isAlpha && cs.all fun d => d.isAlphanum || d == '_') = true) : IsName s := by
  rw [Bool.and_eq_true, List.all_eq_true] at hc
  exact ⟨c, cs, h, hc.1, hc.2⟩

example : exFlatGuard.Flat 1 := by
  have a : IsName "a_1" := isName_of rfl (by decide)
  have n : IsName "n" := isName_of rfl (by decide)
  have x : IsName "x" := isName_of rfl (by decide)
  have y : IsName "y" := isName_of rfl (by decide)
  simp only [exFlatGuard, BoolE.Flat, Arith.Flat]
  refine ⟨by decide, ⟨by decide, ⟨⟨by decide, ⟨by decide, a, by decide, by decide, n⟩, x⟩, by decide⟩,
    by decide, ⟨x, y⟩, trivial⟩, ⟨by decide, y, by decide⟩, by decide⟩

example : exFlatGuard.encode =
    "a_1+2*n-x<=7 && x<y || true && y%3==0".toList := by decide +kernel

/-- A conjunction nested to the right, as `BoolExpression::conjunction` builds it -/
example : (BoolE.conjunction [.le (.var "x") (.int 1), .ge (.var "y") (.int 2), .bool true]).Groups 1 ∧
    BoolE.conjunction [.le (.var "x") (.int 1), .ge (.var "y") (.int 2), .bool true] =
      .and (.bool true) (.and (.ge (.var "y") (.int 2)) (.le (.var "x") (.int 1))) := by
  have x : IsName "x" := isName_of rfl (by decide)
  have y : IsName "y" := isName_of rfl (by decide)
  exact ⟨⟨by decide, trivial, by decide, ⟨y, by decide, by decide⟩, x, by decide, by decide⟩, rfl⟩

example : '(' ∉ " x - y < 3 && n>=2 ;".toList ∧
    parseGuard " x - y < 3 && n>=2 ;".toList =
      .ok (.and (.lt (.dif (.var "x") (.var "y")) (.int 3)) (.ge (.var "n") (.int 2))) := by decide +kernel

example : (∀ k ∈ [⟨0, 1, .LE (-1)⟩, ⟨1, 2, .LS 4⟩], Constr.Printable k) ∧
    fromDisjunction [[⟨0, 1, .LE (-1)⟩, ⟨1, 2, .LS 4⟩]] [("x", 1), ("y", 2)] =
      .ok (some (.and (.ge (.var "x") (.int 1)) (.lt (.dif (.var "x") (.var "y")) (.int 4)))) := by
  refine ⟨?_, by decide +kernel⟩
  simp [Constr.Printable]

end Reveaal
