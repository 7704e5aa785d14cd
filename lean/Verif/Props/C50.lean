import Mathlib.Data.List.Infix
import Verif.Props.C51

/-!
# C50: reading queries never crashes
-/

namespace Reveaal
open Text

/-- **C50 is violated.** A query for one of two locations crashes. -/
theorem C50_violated_or : ∃ m, parseQueries "reachability: A @ init -> A.L1 or A.L2".toList = .error (.panic m) :=
  ⟨"Expected postfix or infix expression", panicOf_ok (by decide +kernel)⟩

/-- **C50 is violated.** A query for not being in a location crashes. -/
theorem C50_violated_not : ∃ m, parseQueries "reachability: A @ init -> not A.L1".toList = .error (.panic m) :=
  ⟨"internal error: entered unreachable code: Unexpected rule: variable", panicOf_ok (by decide +kernel)⟩

/-- **C50 is violated.** A number that is too large crashes. -/
theorem C50_violated_number : ∃ m, parseQueries "reachability: A @ init -> A.x < 3000000000".toList = .error (.panic m) :=
  ⟨_, panicOf_ok (m := "called `Result::unwrap()` on an `Err` value: ParseIntError { kind: PosOverflow }")
    (by decide +kernel)⟩

/-! ## What follows what was read -/

theorem nameRule_shrinks : Shrinks nameRule := fun _ _ _ h => (nameRule_spec h).2

theorem componentRule_shrinks : Shrinks componentRule := fun _ _ _ h => (componentRule_spec h).2

theorem variableRule_shrinks : Shrinks variableRule := by
  intro cs x r h
  simp only [variableRule, Option.bind_eq_bind, Option.bind_eq_some_iff, Prod.exists, Option.some.injEq,
    Prod.mk.injEq] at h
  obtain ⟨c, i, r1, h1, r2, h2, w, r3, h3, _, rfl⟩ := h
  exact (nameRule_shrinks _ _ _ h3).trans ((skip_suffix _).trans ((lit_suffix h2).trans ((skip_suffix _).trans
    (componentRule_shrinks _ _ _ h1))))

theorem operandRule_shrinks : Shrinks operandRule := by
  intro cs x r h
  simp only [operandRule] at h
  split at h
  · rename_i ds r' hd; cases h; exact digits_shrinks _ _ _ hd
  · split at h
    · rename_i v r' hv; cases h; exact variableRule_shrinks _ _ _ hv
    · cases h

theorem boolDiffRule_shrinks : Shrinks boolDiffRule := by
  intro cs x r h
  simp only [boolDiffRule, Option.bind_eq_bind, Option.bind_eq_some_iff, Prod.exists, Option.some.injEq,
    Prod.mk.injEq] at h
  obtain ⟨t, r1, h1, _, rfl⟩ := h
  exact (many_suffix (oneOf_shrinks _) operandRule_shrinks _ _).trans (operandRule_shrinks _ _ _ h1)

theorem compExprRule_shrinks : Shrinks compExprRule := by
  intro cs x r h
  simp only [compExprRule, Option.bind_eq_bind, Option.bind_eq_some_iff, Prod.exists, Option.some.injEq,
    Prod.mk.injEq] at h
  obtain ⟨a, r1, h1, o, r2, h2, b, r3, h3, _, rfl⟩ := h
  exact (boolDiffRule_shrinks _ _ _ h3).trans ((skip_suffix _).trans ((oneOf_shrinks _ _ _ _ h2).trans
    ((skip_suffix _).trans (boolDiffRule_shrinks _ _ _ h1))))

theorem locExprRule_shrinks : Shrinks locExprRule := by
  intro cs x r h
  simp only [locExprRule, Option.bind_eq_bind, Option.bind_eq_some_iff, Prod.exists, Option.some.injEq,
    Prod.mk.injEq] at h
  obtain ⟨v, r1, h1, _, rfl⟩ := h
  exact variableRule_shrinks _ _ _ h1

theorem stateBoolRule_shrinks : Shrinks stateBoolRule := by
  intro cs x r h
  simp only [stateBoolRule, Option.bind_eq_bind, Option.bind_eq_some_iff, Prod.exists, Option.some.injEq,
    Prod.mk.injEq] at h
  obtain ⟨v, r1, h1, _, rfl⟩ := h
  exact oneOf_shrinks _ _ _ _ h1

theorem notRule_shrinks {rule : Rule SPair} (hr : Shrinks rule) : Shrinks (notRule rule) := by
  intro cs x r h
  simp only [notRule, Option.bind_eq_bind, Option.bind_eq_some_iff, Prod.exists, Option.some.injEq,
    Prod.mk.injEq] at h
  obtain ⟨_, r1, h1, e, r2, h2, _, rfl⟩ := h
  exact (hr _ _ _ h2).trans ((skip_suffix _).trans (oneOf_shrinks _ _ _ _ h1))

theorem listRule_shrinks {op : Rule Unit} {mk : List SPair → SPair} {term : Rule SPair} (hop : Shrinks op)
    (ht : Shrinks term) : Shrinks (listRule op mk term) := by
  intro cs x r h
  simp only [listRule, Option.bind_eq_bind, Option.bind_eq_some_iff, Prod.exists, Option.some.injEq,
    Prod.mk.injEq] at h
  obtain ⟨t, r1, h1, _, rfl⟩ := h
  exact (many_suffix hop ht _ _).trans (ht _ _ _ h1)

theorem boolStateRule_shrinks (n : Nat) : Shrinks (boolStateRule n) := by
  induction n with
  | zero => intro cs x r h; cases h
  | succ n ih =>
    exact listRule_shrinks (oneOf_shrinks _) (listRule_shrinks (oneOf_shrinks _) (orElse_shrinks (parens_shrinks ih)
      (orElse_shrinks (notRule_shrinks ih) (orElse_shrinks compExprRule_shrinks
        (orElse_shrinks locExprRule_shrinks stateBoolRule_shrinks)))))

theorem stateRule_shrinks : Shrinks stateRule := by
  intro cs x r h
  simp only [stateRule, Option.bind_eq_bind, Option.bind_eq_some_iff, Prod.exists, Option.some.injEq,
    Prod.mk.injEq] at h
  obtain ⟨p, r1, h1, _, rfl⟩ := h
  exact boolStateRule_shrinks _ _ _ _ h1

theorem startRule_shrinks : Shrinks startRule := by
  intro cs x r h
  simp only [startRule] at h
  split at h
  · rename_i e r' he; cases h; exact stateRule_shrinks _ _ _ he
  · simp only [Option.bind_eq_bind, Option.bind_eq_some_iff, Option.some.injEq, Prod.mk.injEq] at h
    obtain ⟨r1, h1, _, rfl⟩ := h
    exact lit_suffix h1

/-! ## States that are read without a crash -/

/-- A text with no `||`, `or`, `not` or `!` in it, and no number over `2147483647` -/
structure PlainState (t : Chars) : Prop where
  noBar : ¬ "||".toList <:+: t
  noOr : ¬ "or".toList <:+: t
  noNot : ¬ "not".toList <:+: t
  noBang : ¬ "!".toList <:+: t
  small : ∀ ds, ds <:+: t → (∀ c ∈ ds, c.isDigit) → Nat.ofDigitChars 10 ds 0 ≤ 2147483647

theorem PlainState.suffix {t t' : Chars} (h : PlainState t) (hs : t' <:+ t) : PlainState t' :=
  ⟨fun g => h.noBar (g.trans hs.isInfix), fun g => h.noOr (g.trans hs.isInfix), fun g => h.noNot (g.trans hs.isInfix),
    fun g => h.noBang (g.trans hs.isInfix), fun ds g => h.small ds (g.trans hs.isInfix)⟩

theorem oneOf_infix {ω : Type} {l : List (Chars × ω)} {cs : Chars} {o : ω} {r : Chars} (h : oneOf l cs = some (o, r)) :
    ∃ p ∈ l, p.1 <:+: cs := by
  induction l with
  | nil => cases h
  | cons p l ih =>
    simp only [oneOf] at h
    split at h
    · rename_i r' hr
      exact ⟨p, List.mem_cons_self .., (lit_prefix hr).isInfix⟩
    · obtain ⟨q, hq, hi⟩ := ih h
      exact ⟨q, List.mem_cons_of_mem _ hq, hi⟩

theorem digits_infix {cs ds r : Chars} (h : digits cs = some (ds, r)) : ds <:+: cs ∧ ∀ c ∈ ds, c.isDigit := by
  cases cs with
  | nil => cases h
  | cons c cs =>
    simp only [digits] at h
    split at h
    · rename_i hc; cases h; subst hc
      exact ⟨List.IsPrefix.isInfix ⟨r, rfl⟩, by intro c hc; rw [List.mem_singleton.1 hc]; decide⟩
    · split at h
      · rename_i hd
        cases h
        refine ⟨List.IsPrefix.isInfix ⟨cs.dropWhile Char.isDigit, ?_⟩, ?_⟩
        · rw [List.cons_append, List.takeWhile_append_dropWhile]
        · intro d hd'
          rcases List.mem_cons.1 hd' with rfl | hd'
          · exact hd
          · exact (List.mem_takeWhile_imp hd')
      · cases h

theorem operandRule_plain {cs : Chars} {x : Res Operand} {r : Chars} (hp : PlainState cs)
    (h : operandRule cs = some (x, r)) : ∃ o, x = .ok o := by
  simp only [operandRule] at h
  split at h
  · rename_i ds r' hd
    cases h
    obtain ⟨hi, hall⟩ := digits_infix hd
    exact ⟨_, by rw [readInt, if_pos (hp.small ds hi hall)]; rfl⟩
  · split at h
    · cases h; exact ⟨_, rfl⟩
    · cases h

theorem boolDiffRule_plain {cs : Chars} {x : Res Operand} {r : Chars} (hp : PlainState cs)
    (h : boolDiffRule cs = some (x, r)) : ∃ o, x = .ok o := by
  simp only [boolDiffRule, Option.bind_eq_bind, Option.bind_eq_some_iff, Prod.exists, Option.some.injEq,
    Prod.mk.injEq] at h
  obtain ⟨t, r1, h1, rfl, rfl⟩ := h
  obtain ⟨o, rfl⟩ := operandRule_plain hp h1
  have hall : ∀ p ∈ (many (oneOf [(['-'], true), (['+'], false)]) operandRule r1.length r1).1, ∃ o, p.2 = .ok o := by
    intro p hm
    obtain ⟨cs', r', hsuf, ht⟩ := many_mem (oneOf_shrinks _) operandRule_shrinks _ _ p hm
    exact operandRule_plain (hp.suffix (hsuf.trans (operandRule_shrinks _ _ _ h1))) ht
  generalize (many (oneOf [(['-'], true), (['+'], false)]) operandRule r1.length r1).1 = l at hall
  clear h1
  induction l generalizing o with
  | nil => exact ⟨o, rfl⟩
  | cons p l ih =>
    obtain ⟨o', ho'⟩ := hall p (List.mem_cons_self ..)
    rw [List.foldl_cons, ho']
    exact ih (diffOf p.1 o o') fun q hq => hall q (List.mem_cons_of_mem _ hq)

theorem parseAll_ok {l : List SPair} (h : ∀ p ∈ l, ∃ x, p.parse = .ok x) : ∃ xs, SPair.parseAll l = .ok xs := by
  induction l with
  | nil => exact ⟨[], by rw [SPair.parseAll]⟩
  | cons p l ih =>
    obtain ⟨x, hx⟩ := h p (List.mem_cons_self ..)
    obtain ⟨xs, hxs⟩ := ih fun q hq => h q (List.mem_cons_of_mem _ hq)
    exact ⟨x :: xs, by rw [SPair.parseAll, hx, hxs]; rfl⟩

theorem primary_andExpr {p : SPair} {l : List SPair} (h : ∀ q ∈ p :: l, ∃ x, q.parse = .ok x) :
    ∃ e, (SPair.andExpr (p :: l)).primary = .ok e := by
  rw [SPair.primary]
  obtain ⟨x, hx⟩ := h p (List.mem_cons_self ..)
  cases l with
  | nil => exact ⟨x, by rw [SPair.primaryList, hx]⟩
  | cons p' l =>
    obtain ⟨xs, hxs⟩ := parseAll_ok fun q hq => h q (List.mem_cons_of_mem p hq)
    exact ⟨_, by rw [SPair.primaryList, hx, hxs]; rfl⟩

theorem compExprRule_flat {cs : Chars} {p : SPair} {r : Chars} (hp : PlainState cs)
    (h : compExprRule cs = some (p, r)) : ∃ e, p.primary = .ok e := by
  simp only [compExprRule, Option.bind_eq_bind, Option.bind_eq_some_iff, Prod.exists, Option.some.injEq,
    Prod.mk.injEq] at h
  obtain ⟨a, r1, h1, o, r2, h2, b, r3, h3, rfl, rfl⟩ := h
  obtain ⟨a, rfl⟩ := boolDiffRule_plain hp h1
  obtain ⟨b, rfl⟩ := boolDiffRule_plain (hp.suffix ((skip_suffix _).trans ((oneOf_shrinks _ _ _ _ h2).trans
    ((skip_suffix _).trans (boolDiffRule_shrinks _ _ _ h1))))) h3
  exact ⟨_, by rw [SPair.primary]; rfl⟩

theorem boolStateRule_flat (n : Nat) {cs : Chars} {p : SPair} {r : Chars} (hp : PlainState cs)
    (h : boolStateRule n cs = some (p, r)) : ∃ e, p.primary = .ok e := by
  induction n generalizing cs p r with
  | zero => cases h
  | succ n ih =>
    rw [boolStateRule] at h
    set sub : Rule SPair := orElse (parens (boolStateRule n)) (orElse (notRule (boolStateRule n))
      (orElse compExprRule (orElse locExprRule stateBoolRule))) with hsub
    have hss : Shrinks sub := orElse_shrinks (parens_shrinks (boolStateRule_shrinks n))
      (orElse_shrinks (notRule_shrinks (boolStateRule_shrinks n)) (orElse_shrinks compExprRule_shrinks
        (orElse_shrinks locExprRule_shrinks stateBoolRule_shrinks)))
    have hsubflat : ∀ {cs p r}, PlainState cs → sub cs = some (p, r) → ∃ e, p.primary = .ok e := by
      intro cs p r hp h
      rw [hsub] at h
      simp only [orElse] at h
      split at h
      · rename_i y hy
        cases h
        simp only [parens, Option.bind_eq_bind, Option.bind_eq_some_iff, Prod.exists, Option.some.injEq,
          Prod.mk.injEq] at hy
        obtain ⟨r1, h1, e, r2, h2, r3, h3, rfl, rfl⟩ := hy
        exact ih (hp.suffix ((skip_suffix _).trans (lit_suffix h1))) h2
      · split at h
        · rename_i y hy
          cases h
          simp only [notRule, Option.bind_eq_bind, Option.bind_eq_some_iff, Prod.exists, Option.some.injEq,
            Prod.mk.injEq] at hy
          obtain ⟨_, r1, h1, _⟩ := hy
          obtain ⟨q, hq, hi⟩ := oneOf_infix h1
          simp only [List.mem_cons, List.not_mem_nil, or_false] at hq
          rcases hq with rfl | rfl
          · exact absurd hi hp.noNot
          · exact absurd hi hp.noBang
        · split at h
          · rename_i y hy; cases h; exact compExprRule_flat hp hy
          · split at h
            · rename_i y hy
              cases h
              simp only [locExprRule, Option.bind_eq_bind, Option.bind_eq_some_iff, Prod.exists, Option.some.injEq,
                Prod.mk.injEq] at hy
              obtain ⟨v, r1, _, rfl, rfl⟩ := hy
              exact ⟨_, by rw [SPair.primary]⟩
            · simp only [stateBoolRule, Option.bind_eq_bind, Option.bind_eq_some_iff, Prod.exists, Option.some.injEq,
                Prod.mk.injEq] at h
              obtain ⟨b, r1, _, rfl, rfl⟩ := h
              exact ⟨_, by rw [SPair.primary]⟩
    have hor : ∀ {cs p r}, PlainState cs →
        listRule (oneOf [(['|', '|'], ()), ("or".toList, ())]) .orExpr sub cs = some (p, r) →
          ∃ e, p.parse = .ok e := by
      intro cs p r hp h
      simp only [listRule, Option.bind_eq_bind, Option.bind_eq_some_iff, Prod.exists, Option.some.injEq,
        Prod.mk.injEq] at h
      obtain ⟨t, r1, h1, rfl, rfl⟩ := h
      have hnil : (many (oneOf [(['|', '|'], ()), ("or".toList, ())]) sub r1.length r1).1 = [] := by
        cases hlen : r1.length with
        | zero => rfl
        | succ k =>
          simp only [many]
          split
          · rfl
          · rename_i o r' ho
            obtain ⟨q, hq, hi⟩ := oneOf_infix ho
            have hp' : PlainState (skip r1) := hp.suffix ((skip_suffix _).trans (hss _ _ _ h1))
            simp only [List.mem_cons, List.not_mem_nil, or_false] at hq
            rcases hq with rfl | rfl
            · exact absurd hi hp'.noBar
            · exact absurd hi hp'.noOr
      rw [hnil, List.map_nil, SPair.parse, SPair.parseInner]
      exact hsubflat hp h1
    have hos : Shrinks (listRule (oneOf [(['|', '|'], ()), ("or".toList, ())]) .orExpr sub) :=
      listRule_shrinks (oneOf_shrinks _) hss
    generalize listRule (oneOf [(['|', '|'], ()), ("or".toList, ())]) .orExpr sub = orRule at h hor hos
    simp only [listRule, Option.bind_eq_bind, Option.bind_eq_some_iff, Prod.exists, Option.some.injEq,
      Prod.mk.injEq] at h
    obtain ⟨t, r1, h1, rfl, rfl⟩ := h
    refine primary_andExpr fun q hq => ?_
    rcases List.mem_cons.1 hq with rfl | hq
    · exact hor hp h1
    · obtain ⟨x, hx, rfl⟩ := List.mem_map.1 hq
      obtain ⟨cs', r', hsuf, ht⟩ := many_mem (oneOf_shrinks _) hos _ _ x hx
      exact hor (hp.suffix (hsuf.trans (hos _ _ _ h1))) ht

theorem stateRule_plain {cs : Chars} {x : Res StateExpr} {r : Chars} (hp : PlainState cs)
    (h : stateRule cs = some (x, r)) : ∃ e, x = .ok e := by
  simp only [stateRule, Option.bind_eq_bind, Option.bind_eq_some_iff, Prod.exists, Option.some.injEq,
    Prod.mk.injEq] at h
  obtain ⟨p, r1, h1, rfl, rfl⟩ := h
  exact boolStateRule_flat _ hp h1

theorem startRule_plain {cs : Chars} {x : Option (Res StateExpr)} {r : Chars} (hp : PlainState cs)
    (h : startRule cs = some (x, r)) : x = none ∨ ∃ e, x = some (.ok e) := by
  simp only [startRule] at h
  split at h
  · rename_i e r' he
    cases h
    obtain ⟨e, rfl⟩ := stateRule_plain hp he
    exact .inr ⟨e, rfl⟩
  · simp only [Option.bind_eq_bind, Option.bind_eq_some_iff, Option.some.injEq, Prod.mk.injEq] at h
    obtain ⟨r1, h1, rfl, _⟩ := h
    exact .inl rfl

/-! ## Queries that are read without a crash -/

/-- What follows an `@` is free of `||`, `or`, `not`, `!` and large numbers. -/
def PlainStates (cs : Chars) : Prop := ∀ a b, cs = a ++ '@' :: b → PlainState b

theorem PlainStates.suffix {t t' : Chars} (h : PlainStates t) (hs : t' <:+ t) : PlainStates t' := by
  obtain ⟨p, rfl⟩ := hs
  intro a b hab
  exact h (p ++ a) b (by rw [hab, List.append_assoc])

/-- What is read by the rule is a query, never a panic. -/
def Fine (rule : Rule (Res QueryExpr)) : Prop :=
  ∀ cs x r, PlainStates cs → rule cs = some (x, r) → (∃ q, x = .ok q)

theorem sysQueryRule_spec (k : String) (mk : SysExpr → QueryExpr) :
    Shrinks (sysQueryRule k mk) ∧ Fine (sysQueryRule k mk) := by
  constructor
  · intro cs x r h
    simp only [sysQueryRule, Option.bind_eq_bind, Option.bind_eq_some_iff, Prod.exists, Option.some.injEq,
      Prod.mk.injEq] at h
    obtain ⟨r1, h1, s, r2, h2, _, rfl⟩ := h
    exact (sysRule_shrinks _ _ _ _ h2).trans ((skip_suffix _).trans (lit_suffix h1))
  · intro cs x r _ h
    simp only [sysQueryRule, Option.bind_eq_bind, Option.bind_eq_some_iff, Prod.exists, Option.some.injEq,
      Prod.mk.injEq] at h
    obtain ⟨r1, h1, s, r2, h2, rfl, rfl⟩ := h
    obtain ⟨e, rfl, _⟩ := sysRule_writable h2
    exact ⟨mk e, rfl⟩

theorem saveQueryRule_spec (k : String) (mk : SaveExpr → QueryExpr) :
    Shrinks (saveQueryRule k mk) ∧ Fine (saveQueryRule k mk) := by
  constructor
  · intro cs x r h
    simp only [saveQueryRule, Option.bind_eq_bind, Option.bind_eq_some_iff, Prod.exists] at h
    obtain ⟨r1, h1, s, r2, h2, h⟩ := h
    have hsuf := (sysRule_shrinks _ _ _ _ h2).trans ((skip_suffix _).trans (lit_suffix h1))
    split at h
    · rename_i w r3 h3
      simp only [Option.bind_eq_some_iff] at h3
      obtain ⟨r4, h4, h5⟩ := h3
      cases h
      exact (nameRule_shrinks _ _ _ h5).trans ((skip_suffix _).trans ((lit_suffix h4).trans ((skip_suffix _).trans hsuf)))
    · cases h; exact hsuf
  · intro cs x r _ h
    simp only [saveQueryRule, Option.bind_eq_bind, Option.bind_eq_some_iff, Prod.exists] at h
    obtain ⟨r1, h1, s, r2, h2, h⟩ := h
    obtain ⟨e, rfl, _⟩ := sysRule_writable h2
    split at h
    · cases h; exact ⟨mk ⟨e, _⟩, rfl⟩
    · cases h; exact ⟨mk ⟨e, _⟩, rfl⟩

theorem refinementRule_spec : Shrinks refinementRule ∧ Fine refinementRule := by
  constructor
  · intro cs x r h
    simp only [refinementRule, Option.bind_eq_bind, Option.bind_eq_some_iff, Prod.exists, Option.some.injEq,
      Prod.mk.injEq] at h
    obtain ⟨r1, h1, a, r2, h2, r3, h3, b, r4, h4, _, rfl⟩ := h
    exact (sysRule_shrinks _ _ _ _ h4).trans ((skip_suffix _).trans ((lit_suffix h3).trans ((skip_suffix _).trans
      ((sysRule_shrinks _ _ _ _ h2).trans ((skip_suffix _).trans (lit_suffix h1))))))
  · intro cs x r _ h
    simp only [refinementRule, Option.bind_eq_bind, Option.bind_eq_some_iff, Prod.exists, Option.some.injEq,
      Prod.mk.injEq] at h
    obtain ⟨r1, h1, a, r2, h2, r3, h3, b, r4, h4, rfl, rfl⟩ := h
    obtain ⟨a, rfl, _⟩ := sysRule_writable h2
    obtain ⟨b, rfl, _⟩ := sysRule_writable h4
    exact ⟨.refinement a b, rfl⟩

theorem reachabilityRule_spec : Shrinks reachabilityRule ∧ Fine reachabilityRule := by
  constructor
  · intro cs x r h
    simp only [reachabilityRule, Option.bind_eq_bind, Option.bind_eq_some_iff, Prod.exists, Option.some.injEq,
      Prod.mk.injEq] at h
    obtain ⟨r1, h1, s, r2, h2, r3, h3, a, r4, h4, r5, h5, b, r6, h6, _, rfl⟩ := h
    exact (stateRule_shrinks _ _ _ h6).trans ((skip_suffix _).trans ((lit_suffix h5).trans ((skip_suffix _).trans
      ((startRule_shrinks _ _ _ h4).trans ((skip_suffix _).trans ((lit_suffix h3).trans ((skip_suffix _).trans
        ((sysRule_shrinks _ _ _ _ h2).trans ((skip_suffix _).trans (lit_suffix h1))))))))))
  · intro cs x r hat h
    simp only [reachabilityRule, Option.bind_eq_bind, Option.bind_eq_some_iff, Prod.exists, Option.some.injEq,
      Prod.mk.injEq] at h
    obtain ⟨r1, h1, s, r2, h2, r3, h3, a, r4, h4, r5, h5, b, r6, h6, rfl, rfl⟩ := h
    have hs : skip r2 <:+ cs := (skip_suffix _).trans ((sysRule_shrinks _ _ _ _ h2).trans ((skip_suffix _).trans
      (lit_suffix h1)))
    have hp : PlainState r3 := hat.suffix hs [] r3 (by
      obtain ⟨t, ht⟩ := lit_prefix h3
      rw [← ht] at h3 ⊢
      rw [lit_append] at h3
      cases h3; rfl)
    have hp4 : skip r5 <:+ r3 := (skip_suffix _).trans ((lit_suffix h5).trans ((skip_suffix _).trans
      ((startRule_shrinks _ _ _ h4).trans (skip_suffix _))))
    obtain ⟨s, rfl, _⟩ := sysRule_writable h2
    obtain ⟨b, rfl⟩ := stateRule_plain (hp.suffix hp4) h6
    rcases startRule_plain (hp.suffix (skip_suffix _)) h4 with rfl | ⟨a, rfl⟩
    · exact ⟨_, rfl⟩
    · exact ⟨_, rfl⟩

theorem orElse_spec {a b : Rule (Res QueryExpr)} (ha : Shrinks a ∧ Fine a) (hb : Shrinks b ∧ Fine b) :
    Shrinks (orElse a b) ∧ Fine (orElse a b) := by
  refine ⟨orElse_shrinks ha.1 hb.1, ?_⟩
  intro cs x r hat h
  simp only [orElse] at h
  split at h
  · rename_i y hy; cases h; exact ha.2 _ _ _ hat hy
  · exact hb.2 _ _ _ hat h

theorem queryRule_spec : Shrinks queryRule ∧ Fine queryRule :=
  orElse_spec refinementRule_spec (orElse_spec (sysQueryRule_spec _ _) (orElse_spec reachabilityRule_spec
    (orElse_spec (sysQueryRule_spec _ _) (orElse_spec (sysQueryRule_spec _ _) (orElse_spec (sysQueryRule_spec _ _)
      (orElse_spec (saveQueryRule_spec _ _) (orElse_spec (saveQueryRule_spec _ _) (saveQueryRule_spec _ _))))))))

/-- **C50 (part).** Reading any text gives queries or an error message and does not crash, unless an `@` is followed,
anywhere, by `||`, `or`, `not`, `!` or a number over `2147483647`.  Not covered, and false: such texts, see
`C50_violated_or`, `C50_violated_not` and `C50_violated_number`. -/
theorem C50_no_crash_partial {cs : Chars} (h : PlainStates cs) :
    (∃ qs, parseQueries cs = .ok qs) ∨ ∃ m, parseQueries cs = .error (.err m) := by
  have hs : PlainStates (skip cs) := h.suffix (skip_suffix _)
  simp only [parseQueries]
  split
  · exact .inr ⟨_, rfl⟩
  · rename_i q r hq
    have hr : PlainStates r := hs.suffix (queryRule_spec.1 _ _ _ hq)
    split
    · left
      have hall : ∀ x ∈ q :: (many (oneOf [([';'], ())]) queryRule r.length r).1.map (·.2), ∃ q', x = .ok q' := by
        intro x hx
        rcases List.mem_cons.1 hx with rfl | hx
        · exact queryRule_spec.2 _ _ _ hs hq
        · obtain ⟨p, hp, rfl⟩ := List.mem_map.1 hx
          obtain ⟨cs', r', hsuf, ht⟩ := many_mem (oneOf_shrinks _) queryRule_spec.1 _ _ p hp
          exact queryRule_spec.2 _ _ _ (hr.suffix hsuf) ht
      generalize q :: (many (oneOf [([';'], ())]) queryRule r.length r).1.map (·.2) = l at hall
      induction l with
      | nil => exact ⟨[], rfl⟩
      | cons x l ih =>
        obtain ⟨q', rfl⟩ := hall x (List.mem_cons_self ..)
        obtain ⟨qs, hqs⟩ := ih fun y hy => hall y (List.mem_cons_of_mem _ hy)
        exact ⟨q' :: qs, by rw [List.mapM_cons, hqs]; rfl⟩
    · exact .inr ⟨_, rfl⟩

/-- A text to which the theorem applies, without reachability queries -/
example : PlainStates "refinement: A || B <= C; prune: A // B save-as D; consistency: (A".toList := by
  intro a b h
  have : '@' ∉ "refinement: A || B <= C; prune: A // B save-as D; consistency: (A".toList := by decide
  rw [h] at this
  exact absurd (List.mem_append_right _ (List.mem_cons_self ..)) this

/-- The text of the reachability query below -/
def plainText : Chars := "reachability: (A || B) @ A.L0 && B[1].y - A.x < 5 -> (A.x >= 30 and true)".toList

/-- A reachability query to which the theorem applies -/
theorem plainText_plain : PlainStates plainText := by
  intro a b h
  have hb : b = " A.L0 && B[1].y - A.x < 5 -> (A.x >= 30 and true)".toList :=
    (by decide +kernel : ∀ s ∈ plainText.tails, s.head? = some '@' →
      s.tail = " A.L0 && B[1].y - A.x < 5 -> (A.x >= 30 and true)".toList) ('@' :: b)
        ((List.mem_tails _ _).2 ⟨a, h.symm⟩) rfl
  subst hb
  refine ⟨by decide +kernel, by decide +kernel, by decide +kernel, by decide +kernel, fun ds hds hd => ?_⟩
  obtain ⟨s, hs, hds⟩ := List.infix_iff_prefix_suffix.1 hds
  exact (by decide +kernel : ∀ s ∈ " A.L0 && B[1].y - A.x < 5 -> (A.x >= 30 and true)".toList.tails,
    ∀ ds ∈ s.inits, (∀ c ∈ ds, c.isDigit) → Nat.ofDigitChars 10 ds 0 ≤ 2147483647) s ((List.mem_tails _ _).2 hds) ds
      ((List.mem_inits _ _).2 hs) hd

/-- The query is read. -/
example : (parseQueries plainText).isOk = true := by decide +kernel

end Reveaal
