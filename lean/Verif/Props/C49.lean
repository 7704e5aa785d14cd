import Verif.Props.C04
import Verif.Props.C51

/-!
# C49: reading guards and updates never crashes
-/

namespace Reveaal
open Text

/-- **C49 is violated.** A guard that consists of a blank crashes. -/
theorem C49_violated_blank : ∃ m, decodeGuard " ".toList = .error (.panic m) :=
  ⟨"Pratt parsing expects non-empty Pairs", rfl⟩

/-- **C49 is violated.** A number that does not fit 32 bits crashes. -/
theorem C49_violated_number : ∃ m, decodeGuard "x < 3000000000".toList = .error (.panic m) :=
  ⟨"called `Result::unwrap()` on an `Err` value: ParseIntError { kind: PosOverflow }", panicOf_ok (by decide +kernel)⟩

/-- **C49 is violated.** An update that divides by zero crashes when it is read. -/
theorem C49_violated_update : ∃ m, decodeUpdates "x = 5 / 0".toList = .error (.panic m) :=
  ⟨"attempt to divide by zero", panicOf_ok (by decide +kernel)⟩

/-! ## When a guard can be read -/

theorem pratt_all {α ω : Type} {prec : ω → Nat} {mk : α → ω → α → α} {P : α → Prop}
    (hmk : ∀ l o x, P l → P x → P (mk l o x)) (n rbp : Nat) (lhs : α) (rest : List (ω × α)) (hl : P lhs)
    (hr : ∀ p ∈ rest, P p.2) :
    P (pratt prec mk n rbp lhs rest).1 ∧ ∀ p ∈ (pratt prec mk n rbp lhs rest).2, P p.2 := by
  induction n generalizing rbp lhs rest with
  | zero => exact ⟨hl, hr⟩
  | succ n ih =>
    match rest with
    | [] => exact ⟨hl, hr⟩
    | (o, x) :: rest =>
      simp only [pratt]
      split
      · have h1 := ih (prec o) x rest (hr _ (List.mem_cons_self ..)) fun p hp => hr p (List.mem_cons_of_mem _ hp)
        exact ih _ _ _ (hmk _ _ _ hl h1.1) h1.2
      · exact ⟨hl, hr⟩

/-- Every number in the text fits 32 bits. -/
def SmallNumbers (cs : Chars) : Prop :=
  ∀ ds, ds <:+: cs → (∀ c ∈ ds, c.isDigit = true) → Nat.ofDigitChars 10 ds 0 ≤ 2147483647

theorem SmallNumbers.suffix {cs r : Chars} (h : SmallNumbers cs) (hr : r <:+ cs) : SmallNumbers r :=
  fun ds hds hd => h ds (hds.trans hr.isInfix) hd

/-- What the rule reads from a text with small numbers has no panic in it. -/
def Calm {α : Type} (rule : Rule (Res α)) : Prop :=
  ∀ cs x r, SmallNumbers cs → rule cs = some (x, r) → ∃ e, x = .ok e

theorem digits_spec {cs ds r : Chars} (h : digits cs = some (ds, r)) : ds <:+: cs ∧ ∀ c ∈ ds, c.isDigit = true := by
  cases cs with
  | nil => cases h
  | cons c cs =>
    simp only [digits] at h
    split at h
    · rename_i hc
      cases h
      refine ⟨⟨[], r, by simp [hc]⟩, ?_⟩
      intro d hd
      rw [List.mem_singleton.1 hd]; decide
    · split at h
      · rename_i hd
        cases h
        refine ⟨⟨[], cs.dropWhile Char.isDigit, by simp⟩, ?_⟩
        intro d hm
        rcases List.mem_cons.1 hm with rfl | hm
        · exact hd
        · exact List.mem_takeWhile_imp hm
      · cases h

theorem atom_calm : Calm atomRule := by
  intro cs x r hs h
  simp only [atomRule] at h
  split at h
  · rename_i ds r' hd
    have h1 := digits_spec hd
    simp only [readInt, hs _ h1.1 h1.2, if_true, Option.some.injEq, Prod.mk.injEq] at h
    exact ⟨_, h.1.symm⟩
  · split at h
    · simp only [Option.some.injEq, Prod.mk.injEq] at h
      exact ⟨_, h.1.symm⟩
    · cases h

theorem parens_calm {α : Type} {rule : Rule (Res α)} (hr : Calm rule) : Calm (parens rule) := by
  intro cs x r hs h
  simp only [parens, Option.bind_eq_bind, Option.bind_eq_some_iff, Prod.exists, Option.some.injEq, Prod.mk.injEq] at h
  obtain ⟨r1, h1, e, r2, h2, r3, h3, rfl, rfl⟩ := h
  exact hr _ _ _ (hs.suffix ((skip_suffix _).trans (lit_suffix h1))) h2

theorem orElse_calm {α : Type} {a b : Rule (Res α)} (ha : Calm a) (hb : Calm b) : Calm (orElse a b) := by
  intro cs x r hs h
  simp only [orElse] at h
  split at h
  · rename_i y hy; cases h; exact ha _ _ _ hs hy
  · exact hb _ _ _ hs h

theorem infixRule_calm {α ω : Type} {op : Rule ω} {prec : ω → Nat} {mk : ω → α → α → α} {term : Rule (Res α)}
    (hop : Shrinks op) (hterm : Shrinks term) (hc : Calm term) : Calm (infixRule op prec mk term) := by
  intro cs x r hs h
  obtain ⟨first, rest, rfl, h1, h2⟩ := infixRule_all (Q := fun t => ∃ e, t = .ok e) hop hterm h
    fun cs' t r' hsuf ht => hc _ _ _ (hs.suffix hsuf) ht
  refine (pratt_all (P := fun t : Res α => ∃ e, t = .ok e) ?_ _ _ _ _ h1 h2).1
  rintro _ o _ ⟨a, rfl⟩ ⟨b, rfl⟩
  exact ⟨_, rfl⟩

theorem arithRule_calm (n : Nat) : Calm (arithRule n) := by
  induction n with
  | zero => intro cs x r _ h; cases h
  | succ n ih =>
    exact infixRule_calm (oneOf_shrinks _) (orElse_shrinks (parens_shrinks (arithRule_shrinks n)) atom_shrinks)
      (orElse_calm (parens_calm ih) atom_calm)

theorem comparison_calm : Calm comparisonRule := by
  intro cs x r hs h
  simp only [comparisonRule, Option.bind_eq_bind, Option.bind_eq_some_iff, Prod.exists, Option.some.injEq,
    Prod.mk.injEq] at h
  obtain ⟨a, r1, h1, o, r2, h2, b, r3, h3, rfl, rfl⟩ := h
  obtain ⟨a, rfl⟩ := arithRule_calm _ _ _ _ hs h1
  obtain ⟨b, rfl⟩ := arithRule_calm _ _ _ _ (hs.suffix ((skip_suffix _).trans ((oneOf_shrinks _ _ _ _ h2).trans
    ((skip_suffix _).trans (arithRule_shrinks _ _ _ _ h1))))) h3
  exact ⟨_, rfl⟩

theorem bool_calm : Calm boolRule := by
  intro cs x r _ h
  simp only [boolRule] at h
  split at h
  · cases h; exact ⟨_, rfl⟩
  · split at h
    · cases h; exact ⟨_, rfl⟩
    · cases h

theorem boolExprRule_calm (n : Nat) : Calm (boolExprRule n) := by
  induction n with
  | zero => intro cs x r _ h; cases h
  | succ n ih =>
    exact infixRule_calm (oneOf_shrinks _) (orElse_shrinks comparison_shrinks (orElse_shrinks bool_shrinks
      (parens_shrinks (boolExprRule_shrinks n)))) (orElse_calm comparison_calm (orElse_calm bool_calm (parens_calm ih)))

/-- There is no expression in the text: it has only blanks, and perhaps a semicolon. -/
def NoExpression (cs : Chars) : Prop := skip cs = [] ∨ ∃ r, skip cs = ';' :: r ∧ skip r = []

theorem skip_skip (cs : Chars) : skip (skip cs) = skip cs := by
  fun_induction skip cs <;> simp_all [skip]

theorem noExpression_iff (cs : Chars) : skip (optLit [';'] (skip cs)) = [] ↔ NoExpression cs := by
  unfold NoExpression
  cases h : skip cs with
  | nil => simp [optLit, lit, skip]
  | cons c r =>
    by_cases hc : ';' = c
    · subst hc; simp [optLit, lit]
    · have : optLit [';'] (c :: r) = c :: r := by simp [optLit, lit, hc]
      rw [this, ← h, skip_skip, h]
      simp [Ne.symm hc]

/-- **C49 (part), for guards.** Reading the guard of an edge, from a text with an expression in it all of whose numbers fit 32 bits,
gives a guard or an error message; it does not crash.  Not covered, and false: other texts, see `C49_violated_blank`
and `C49_violated_number`. -/
theorem C49_guard_partial {cs : Chars} (hne : ¬ NoExpression cs) (hs : SmallNumbers cs) :
    (∃ g, parseGuard cs = .ok g) ∨ ∃ m, parseGuard cs = .error (.err m) := by
  simp only [parseGuard, guardRule]
  cases h : boolExprRule ((skip cs).length + 1) (skip cs) with
  | none =>
    simp only [(noExpression_iff cs).not.2 hne, if_false]
    exact .inr ⟨_, rfl⟩
  | some p =>
    obtain ⟨x, r⟩ := p
    obtain ⟨g, rfl⟩ := boolExprRule_calm _ _ _ _ (hs.suffix (skip_suffix _)) h
    dsimp only
    split
    · exact .inr ⟨_, rfl⟩
    · rename_i hk; split at hk <;> cases hk
    · rename_i e he
      split at he
      · cases he; exact .inl ⟨_, rfl⟩
      · cases he

theorem boolExprRule_noExpression {cs : Chars} (h : NoExpression cs) (n : Nat) : boolExprRule n (skip cs) = none := by
  have h1 : arithRule ((skip cs).length + 1) (skip cs) = none := by
    rcases h with h | ⟨r, h, _⟩
    · rw [h]; rfl
    · rw [h]; rfl
  have h2 : comparisonRule (skip cs) = none := by
    unfold comparisonRule; rw [h1]; rfl
  cases n with
  | zero => rfl
  | succ n =>
    have h3 : orElse comparisonRule (orElse boolRule (parens (boolExprRule n))) (skip cs) = none := by
      unfold orElse
      rw [h2]
      rcases h with h | ⟨r, h, _⟩
      · rw [h]; rfl
      · rw [h]; rfl
    unfold boolExprRule infixRule
    rw [h3]; rfl

/-- Every text without an expression crashes the reader. -/
theorem C49_violated_every_blank {cs : Chars} (h : NoExpression cs) : ∃ m, parseGuard cs = .error (.panic m) := by
  simp only [parseGuard, guardRule, boolExprRule_noExpression h, (noExpression_iff cs).2 h, if_true]
  exact ⟨_, rfl⟩

/-! ## When updates can be read -/

theorem arithOp_none {cs : Chars} (h : ∀ c ∈ ['+', '-', '*', '/', '%'], c ∉ cs) : arithOp cs = none := by
  cases cs with
  | nil => rfl
  | cons c cs =>
    simp only [List.mem_cons, List.not_mem_nil, or_false, forall_eq_or_imp, forall_eq, not_or] at h
    obtain ⟨⟨h1, _⟩, ⟨h2, _⟩, ⟨h3, _⟩, ⟨h4, _⟩, ⟨h5, _⟩⟩ := h
    simp [arithOp, oneOf, lit, h1, h2, h3, h4, h5]

/-- Without operators an expression is a number or name. -/
theorem arithRule_single {n : Nat} {cs r : Chars} {x : Res Arith} (hop : ∀ c ∈ ['+', '-', '*', '/', '%'], c ∉ cs)
    (hs : SmallNumbers cs) (h : arithRule n cs = some (x, r)) : ∃ e, x = .ok e ∧ e.simplify = .ok e := by
  induction n generalizing cs x r with
  | zero => cases h
  | succ n ih =>
    simp only [arithRule, infixRule, Option.bind_eq_bind, Option.bind_eq_some_iff, Prod.exists, Option.some.injEq,
      Prod.mk.injEq] at h
    obtain ⟨t, r1, h1, rfl, rfl⟩ := h
    have hsuf := (orElse_shrinks (parens_shrinks (arithRule_shrinks n)) atom_shrinks) _ _ _ h1
    have h2 : (many arithOp (orElse (parens (arithRule n)) atomRule) r1.length r1).1 = [] := by
      cases r1 with
      | nil => rfl
      | cons c r1 =>
        rw [List.length_cons, many, arithOp_none fun d hd hm => hop d hd (((skip_suffix _).trans hsuf).subset hm)]
    rw [h2]
    show ∃ e, t = _ ∧ _
    simp only [orElse] at h1
    split at h1
    · rename_i y hy
      cases h1
      simp only [parens, Option.bind_eq_bind, Option.bind_eq_some_iff, Prod.exists, Option.some.injEq, Prod.mk.injEq] at hy
      obtain ⟨r2, h3, e, r3, h4, r4, h5, rfl, rfl⟩ := hy
      have hsuf2 := (skip_suffix _).trans (lit_suffix h3)
      exact ih (fun d hd hm => hop d hd (hsuf2.subset hm)) (hs.suffix hsuf2) h4
    · obtain ⟨e, rfl⟩ := atom_calm _ _ _ hs h1
      have hw := atom_writable h1 e rfl
      refine ⟨e, rfl, ?_⟩
      cases e with
      | int c => rfl
      | var n => rfl
      | _ => exact absurd hw (by simp [Arith.Writable])

theorem assignmentRule_shrinks : Shrinks assignmentRule := by
  intro cs x r h
  simp only [assignmentRule, Option.bind_eq_bind, Option.bind_eq_some_iff, Prod.exists, Option.some.injEq,
    Prod.mk.injEq] at h
  obtain ⟨w, r1, h1, _, r2, h2, e, r3, h3, _, rfl⟩ := h
  exact (arithRule_shrinks _ _ _ _ h3).trans ((skip_suffix _).trans ((oneOf_shrinks _ _ _ _ h2).trans
    ((skip_suffix _).trans (word_shrinks _ _ _ h1))))

theorem assignmentRule_ok {cs r : Chars} {x : Res Update} (hop : ∀ c ∈ ['+', '-', '*', '/', '%'], c ∉ cs)
    (hs : SmallNumbers cs) (h : assignmentRule cs = some (x, r)) : ∃ u, x = .ok u := by
  simp only [assignmentRule, Option.bind_eq_bind, Option.bind_eq_some_iff, Prod.exists, Option.some.injEq,
    Prod.mk.injEq] at h
  obtain ⟨w, r1, h1, _, r2, h2, e, r3, h3, rfl, rfl⟩ := h
  have hsuf : skip r2 <:+ cs := (skip_suffix _).trans ((oneOf_shrinks _ _ _ _ h2).trans
    ((skip_suffix _).trans (word_shrinks _ _ _ h1)))
  obtain ⟨e, rfl, he⟩ := arithRule_single (fun d hd hm => hop d hd (hsuf.subset hm)) (hs.suffix hsuf) h3
  exact ⟨⟨String.ofList w, e⟩, by simp only [ok_bind, he]⟩

/-- **C49 (part), for updates.** Reading the updates of an edge, from a text without operators all of whose numbers fit 32
bits, gives the updates or an error message; it does not crash.  Not covered, and false: texts with operators, see
`C49_violated_update`. -/
theorem C49_updates_partial {cs : Chars} (hop : ∀ c ∈ ['+', '-', '*', '/', '%'], c ∉ cs) (hs : SmallNumbers cs) :
    (∃ us, parseUpdates cs = .ok us) ∨ ∃ m, parseUpdates cs = .error (.err m) := by
  have hop' : ∀ {r : Chars}, r <:+ cs → ∀ c ∈ ['+', '-', '*', '/', '%'], c ∉ r :=
    fun hr d hd hm => hop d hd (hr.subset hm)
  simp only [parseUpdates, updateRule]
  cases h : assignmentRule (skip cs) with
  | none =>
    dsimp only
    split
    · exact .inr ⟨_, rfl⟩
    · rename_i us hus
      split at hus
      · cases hus; exact .inl ⟨[], rfl⟩
      · cases hus
  | some p =>
    obtain ⟨x, r⟩ := p
    dsimp only
    have hr : r <:+ cs := (assignmentRule_shrinks _ _ _ h).trans (skip_suffix _)
    split
    · exact .inr ⟨_, rfl⟩
    · rename_i us hus
      split at hus
      · left
        cases hus
        have hall : ∀ y ∈ x :: (many (oneOf [([','], ())]) assignmentRule r.length r).1.map (·.2), ∃ u, y = .ok u := by
          intro y hy
          rcases List.mem_cons.1 hy with rfl | hy
          · exact assignmentRule_ok (hop' (skip_suffix _)) (hs.suffix (skip_suffix _)) h
          · obtain ⟨p, hp, rfl⟩ := List.mem_map.1 hy
            obtain ⟨cs', r', hsuf, ht⟩ := many_mem (oneOf_shrinks _) assignmentRule_shrinks _ _ p hp
            exact assignmentRule_ok (hop' (hsuf.trans hr)) (hs.suffix (hsuf.trans hr)) ht
        generalize x :: (many (oneOf [([','], ())]) assignmentRule r.length r).1.map (·.2) = l at hall
        induction l with
        | nil => exact ⟨[], rfl⟩
        | cons y l ih =>
          obtain ⟨u, rfl⟩ := hall y (List.mem_cons_self ..)
          obtain ⟨us, hus⟩ := ih fun z hz => hall z (List.mem_cons_of_mem _ hz)
          exact ⟨u :: us, by rw [List.mapM_cons, hus]; rfl⟩
      · cases hus

theorem ofDigitChars_le (ds : Chars) (hd : ∀ c ∈ ds, c.isDigit = true) :
    Nat.ofDigitChars 10 ds 0 < 10 ^ ds.length := by
  have : ∀ (n : Nat), Nat.ofDigitChars 10 ds n < (n + 1) * 10 ^ ds.length := by
    induction ds with
    | nil => intro n; simp [Nat.ofDigitChars]
    | cons c ds ih =>
      intro n
      rw [Nat.ofDigitChars_cons]
      have hc : c.toNat - '0'.toNat ≤ 9 := by
        have := hd c (List.mem_cons_self ..)
        simp only [Char.isDigit, Bool.and_eq_true, decide_eq_true_eq] at this
        have h2 := this.2
        rw [UInt32.le_iff_toNat_le] at h2
        have h3 : c.toNat ≤ 57 := h2
        have h4 : '0'.toNat = 48 := rfl
        omega
      have h1 := ih (fun d hm => hd d (List.mem_cons_of_mem _ hm)) (10 * n + (c.toNat - '0'.toNat))
      refine lt_of_lt_of_le h1 ?_
      rw [List.length_cons, pow_succ']
      calc (10 * n + (c.toNat - '0'.toNat) + 1) * 10 ^ ds.length ≤ ((n + 1) * 10) * 10 ^ ds.length :=
            Nat.mul_le_mul_right _ (by omega)
        _ = (n + 1) * (10 * 10 ^ ds.length) := by rw [Nat.mul_assoc]
  simpa using this 0

/-- Texts of at most nine characters have only small numbers, and so have texts whose digits are at most nine in a row. -/
theorem smallNumbers_of_runs {cs : Chars} (h : ∀ ds, ds <:+: cs → (∀ c ∈ ds, c.isDigit = true) → ds.length ≤ 9) :
    SmallNumbers cs := by
  intro ds hi hd
  have h1 := ofDigitChars_le ds hd
  have h2 : 10 ^ ds.length ≤ 10 ^ 9 := Nat.pow_le_pow_right (by omega) (h ds hi hd)
  omega

/-- A guard and an update to which the theorems apply -/
example : ¬ NoExpression "(x<=5)".toList ∧ SmallNumbers "(x<=5)".toList := by
  refine ⟨?_, smallNumbers_of_runs fun ds hi _ => le_trans hi.length_le (by decide)⟩
  rintro (h | ⟨r, h, _⟩)
  · revert h; decide
  · have := congrArg List.head? h; revert this; simp [skip]

example : (∀ c ∈ ['+', '-', '*', '/', '%'], c ∉ "x=(30), y".toList) ∧ SmallNumbers "x=(30), y".toList :=
  ⟨by decide, smallNumbers_of_runs fun ds hi _ => le_trans hi.length_le (by decide)⟩

end Reveaal
