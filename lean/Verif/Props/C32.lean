import Verif.Model.QueryText
import Verif.Props.C04

/-!
# C32: printed system expressions parse back to the same system
-/

namespace Reveaal
open Text

/-! ## Components -/

/-- What may follow a component without a special id -/
def AfterName (rest : Chars) : Prop :=
  Ends rest ∧ rest.head? ≠ some '-' ∧ (skip rest).head? ≠ some '['

theorem isNameText_of {s : String} (h : IsName s) : IsNameText s.toList := h

theorem name_reads {w rest : Chars} (hw : IsNameText w) (hr : Ends rest) (hd : rest.head? ≠ some '-') :
    nameRule (w ++ rest) = some (w, rest) := by
  simp only [nameRule, word_append hw hr]
  split
  · rename_i w' r' h
    cases h
    exact absurd rfl hd
  · rfl

theorem lit_head {c : Char} {cs : Chars} (h : cs.head? ≠ some c) : lit [c] cs = none := by
  cases cs with
  | nil => rfl
  | cons d cs =>
    have : c ≠ d := by rintro rfl; exact h rfl
    simp [lit, this]

theorem specialId_reads {i rest : Chars} (hne : i ≠ []) (hs : skip (i ++ (']' :: rest)) = i ++ (']' :: rest)) (h1 : '[' ∉ i) (h2 : ']' ∉ i) :
    specialIdRule ('[' :: (i ++ (']' :: rest))) = some (i, rest) := by
  have ht := takeWhile_append_stop (p := fun c => c != '[' && c != ']') (w := i) (rest := ']' :: rest)
    (by
      intro c hc
      have a : c ≠ '[' := by rintro rfl; exact h1 hc
      have b : c ≠ ']' := by rintro rfl; exact h2 hc
      simp [a, b])
    (by intro c hc; cases hc; decide)
  have hi : identifierRule (i ++ (']' :: rest)) = some (i, ']' :: rest) := by
    simp only [identifierRule, ht.1, ht.2]
  have hk : skip (']' :: rest) = ']' :: rest := skip_cons (by decide)
  simp [specialIdRule, lit, hs, hi, hk]

theorem component_none {name : String} (hn : IsName name) {rest : Chars} (hr : AfterName rest) :
    componentRule (name.toList ++ rest) = some ((name, none), rest) := by
  have h1 : specialIdRule (skip rest) = none := by simp [specialIdRule, lit_head hr.2.2]
  simp [componentRule, name_reads (isNameText_of hn) hr.1 hr.2.1, h1, String.ofList_toList]

theorem skip_return {cs : Chars} (h : cs.head? ≠ some '\n') : skip ('\r' :: cs) = '\r' :: cs := by
  unfold skip
  split <;> simp_all

theorem IsSpecialId.skip_append {id : String} (h : IsSpecialId id) (r : Chars) :
    skip (id.toList ++ (']' :: r)) = id.toList ++ (']' :: r) := by
  obtain ⟨c, cs, hc, h1, h2, h3, h4, _⟩ := h
  rw [hc]
  by_cases hr : c = '\r'
  · subst hr
    refine skip_return ?_
    cases cs with
    | nil => simp
    | cons d cs =>
      intro hd
      cases hd
      exact h4 ⟨cs, rfl⟩
  · exact skip_cons ⟨h1, h3, h2, hr⟩

theorem component_some {name id : String} (hn : IsName name) (hi : IsSpecialId id) (rest : Chars) :
    componentRule (name.toList ++ ('[' :: (id.toList ++ (']' :: rest)))) = some ((name, some id), rest) := by
  have hs := hi.skip_append rest
  obtain ⟨c, cs, hc, _, _, _, _, h1, h2⟩ := hi
  have h3 := specialId_reads (rest := rest) (i := id.toList) (by rw [hc]; simp) hs
    (by rw [hc]; exact h1) (by rw [hc]; exact h2)
  have hk : skip ('[' :: (id.toList ++ (']' :: rest))) = '[' :: (id.toList ++ (']' :: rest)) := skip_cons (by decide)
  simp [componentRule, name_reads (isNameText_of hn) (rest := '[' :: (id.toList ++ (']' :: rest))) (ends_cons (by decide))
    (by simp), hk, h3, String.ofList_toList]

/-! ## Systems -/

/-- The rule for the operands of a system expression -/
def sysTerm (n : Nat) : Rule (Res SysExpr) := orElse componentTerm (parens (sysRule n))

/-- The text of an operator -/
def FOp.text : FOp → Chars
  | .quotient => [' ', '\\', '\\', ' ']
  | .conjunction => [' ', '&', '&', ' ']
  | .composition => [' ', '|', '|', ' ']

/-- How deeply the expression is nested -/
def SysExpr.depth : SysExpr → Nat
  | .composition l r | .conjunction l r | .quotient l r => max l.depth r.depth + 1
  | .component _ _ => 0

theorem SysExpr.print_mk (o : FOp) (l r : SysExpr) :
    (o.mk l r).print = '(' :: (l.print ++ (o.text ++ (r.print ++ [')']))) := by
  cases o <;> rfl

theorem SysExpr.depth_print (e : SysExpr) : e.depth ≤ e.print.length := by
  induction e with
  | component _ _ => exact Nat.zero_le _
  | composition l r ihl ihr => simp only [depth, print, List.length_cons, List.length_append]; omega
  | conjunction l r ihl ihr => simp only [depth, print, List.length_cons, List.length_append]; omega
  | quotient l r ihl ihr => simp only [depth, print, List.length_cons, List.length_append]; omega

/-- The text of a system expression begins with a letter or a parenthesis. -/
theorem SysExpr.Writable.head {e : SysExpr} (h : e.Writable) :
    ∃ c cs, e.print = c :: cs ∧ (c.isAlpha = true ∨ c = '(') := by
  cases e with
  | component name id =>
    cases id with
    | none => obtain ⟨c, cs, h1, h2, _⟩ := h; exact ⟨c, cs, h1, .inl h2⟩
    | some id =>
      obtain ⟨⟨c, cs, h1, h2, _⟩, _⟩ := h
      exact ⟨c, _, by simp only [print, h1]; rfl, .inl h2⟩
  | composition l r => exact ⟨'(', _, rfl, .inr rfl⟩
  | conjunction l r => exact ⟨'(', _, rfl, .inr rfl⟩
  | quotient l r => exact ⟨'(', _, rfl, .inr rfl⟩

theorem SysExpr.Writable.skip {e : SysExpr} (h : e.Writable) (rest : Chars) : skip (e.print ++ rest) = e.print ++ rest := by
  obtain ⟨c, cs, h1, h2⟩ := h.head
  rw [h1]
  rcases h2 with h2 | rfl
  · exact skip_word (isWord_of_alpha h2)
  · exact skip_cons (by decide)

theorem FOp.after (o : FOp) (rest : Chars) : AfterName (o.text ++ rest) := by
  cases o <;>
  exact ⟨ends_cons (by decide), by simp [FOp.text], by simp [FOp.text, Text.skip]⟩

theorem FOp.reads (o : FOp) {e : SysExpr} (h : e.Writable) (rest : Chars) :
    ∃ r, featureOp (skip (o.text ++ (e.print ++ rest))) = some (o, r) ∧ skip r = e.print ++ rest := by
  refine ⟨' ' :: (e.print ++ rest), ?_, ?_⟩
  · cases o <;> simp [FOp.text, skip, featureOp, oneOf, lit]
  · rw [show skip (' ' :: (e.print ++ rest)) = skip (e.print ++ rest) from rfl, h.skip]

theorem word_paren (cs : Chars) : word ('(' :: cs) = none := rfl

theorem componentTerm_paren (cs : Chars) : componentTerm ('(' :: cs) = none := rfl

/-- An expression of operators and operands that are read by the rule for operands is read. -/
theorem infix_reads {n : Nat} (t : OpTree SysExpr FOp) (hfit : t.Fits FOp.prec 1)
    (hw : ∀ a, t.Leaf a → a.Writable)
    (ht : ∀ a, t.Leaf a → ∀ rest, AfterName rest → sysTerm n (a.print ++ rest) = some (.ok a, rest))
    {rest : Chars} (hr : AfterName rest) (hend : featureOp (skip rest) = none) :
    sysRule (n + 1) (t.write SysExpr.print FOp.text ++ rest) =
      some ((t.map Except.ok).val (fun l o x => lift2 (FOp.mk o) l x), rest) :=
  infixRule_reads (op := featureOp) (prec := FOp.prec) (mk := FOp.mk) (term := sysTerm n) (leafText := SysExpr.print)
    (opText := FOp.text) (sem := Except.ok) (Stop := AfterName) t hfit (by intro o; cases o <;> simp [FOp.text])
    ht (fun o a ha rest => o.reads (hw a ha) rest) (fun o rest => o.after rest) rest hr hend

theorem after_close (rest : Chars) : AfterName (')' :: rest) :=
  ⟨ends_cons (by decide), by simp, by rw [skip_cons (by decide)]; simp⟩

theorem SysExpr.reads_mk {n : Nat} (o : FOp) {l r : SysExpr} (hl : l.Writable) (hr : r.Writable)
    (ihl : ∀ rest, AfterName rest → sysTerm n (l.print ++ rest) = some (.ok l, rest))
    (ihr : ∀ rest, AfterName rest → sysTerm n (r.print ++ rest) = some (.ok r, rest)) (rest : Chars) :
    sysTerm (n + 1) ((o.mk l r).print ++ rest) = some (.ok (o.mk l r), rest) := by
  have key := infix_reads (.node (.leaf l) o (.leaf r)) ⟨by cases o <;> decide, trivial, trivial⟩
    (by rintro a (rfl | rfl) <;> assumption) (by rintro a (rfl | rfl) <;> assumption)
    (after_close rest) (by rw [skip_cons (by decide)]; rfl)
  have hk : skip (')' :: rest) = ')' :: rest := skip_cons (by decide)
  have he : (OpTree.node (.leaf l) o (.leaf r)).write SysExpr.print FOp.text ++ ')' :: rest =
      l.print ++ (o.text ++ (r.print ++ ')' :: rest)) := by simp [OpTree.write]
  rw [he] at key
  have hv : (OpTree.map (Except.ok (ε := Fail)) (.node (.leaf l) o (.leaf r))).val
      (fun l o x => lift2 (FOp.mk o) l x) = .ok (o.mk l r) := rfl
  rw [hv] at key
  have hp : (o.mk l r).print ++ rest = '(' :: (l.print ++ (o.text ++ (r.print ++ ')' :: rest))) := by
    rw [SysExpr.print_mk]; simp
  rw [hp, sysTerm, orElse, componentTerm_paren]
  simp [parens, lit, hl.skip, key, hk]

/-- A printed system expression is read by the rule for operands. -/
theorem SysExpr.term_reads {e : SysExpr} (h : e.Writable) {n : Nat} (hn : e.depth ≤ n) {rest : Chars} (hr : AfterName rest) :
    sysTerm n (e.print ++ rest) = some (.ok e, rest) := by
  induction e generalizing n rest with
  | component name id =>
    cases id with
    | none =>
      show sysTerm n (name.toList ++ rest) = _
      simp [sysTerm, orElse, componentTerm, component_none h hr]
    | some id =>
      have : (SysExpr.component name (some id)).print ++ rest = name.toList ++ ('[' :: (id.toList ++ (']' :: rest))) := by
        simp [print]
      simp [this, sysTerm, orElse, componentTerm, component_some h.1 h.2]
  | composition l r ihl ihr =>
    cases n with
    | zero => simp [depth] at hn
    | succ n =>
      simp only [depth] at hn
      exact SysExpr.reads_mk .composition h.1 h.2 (fun _ hr => ihl h.1 (by omega) hr) (fun _ hr => ihr h.2 (by omega) hr) _
  | conjunction l r ihl ihr =>
    cases n with
    | zero => simp [depth] at hn
    | succ n =>
      simp only [depth] at hn
      exact SysExpr.reads_mk .conjunction h.1 h.2 (fun _ hr => ihl h.1 (by omega) hr) (fun _ hr => ihr h.2 (by omega) hr) _
  | quotient l r ihl ihr =>
    cases n with
    | zero => simp [depth] at hn
    | succ n =>
      simp only [depth] at hn
      exact SysExpr.reads_mk .quotient h.1 h.2 (fun _ hr => ihl h.1 (by omega) hr) (fun _ hr => ihr h.2 (by omega) hr) _

/-- A printed system expression is read back, up to any text that cannot continue it. -/
theorem SysExpr.reads {e : SysExpr} (h : e.Writable) {n : Nat} (hn : e.depth ≤ n) {rest : Chars} (hr : AfterName rest)
    (hend : featureOp (Text.skip rest) = none) : sysRule (n + 1) (e.print ++ rest) = some (.ok e, rest) :=
  infix_reads (.leaf e) trivial (by rintro a rfl; exact h) (by rintro a rfl rest hr; exact SysExpr.term_reads h hn hr) hr hend

/-! ## Expressions that were read -/

theorem nameRule_spec {cs w r : Chars} (h : nameRule cs = some (w, r)) : IsNameText w ∧ r <:+ cs := by
  have hw : word cs = some (w, r) := by
    simp only [nameRule] at h
    split at h
    · cases h
    · exact h
  refine ⟨?_, word_shrinks _ _ _ hw⟩
  have := word_isName hw
  rwa [IsName, String.toList_ofList] at this

theorem skip_head {cs d : Chars} (h : skip cs = d) : d.head? ≠ some ' ' ∧ d.head? ≠ some '\t' ∧ d.head? ≠ some '\n' ∧
    ¬ ['\r', '\n'] <+: d := by
  induction cs using skip.induct with
  | case1 r ih => unfold skip at h; exact ih h
  | case2 r ih => unfold skip at h; exact ih h
  | case3 r ih => unfold skip at h; exact ih h
  | case4 r ih => unfold skip at h; exact ih h
  | case5 r h1 h2 h3 h4 =>
    have : skip r = r := by unfold skip; split <;> simp_all
    rw [this] at h
    subst h
    refine ⟨?_, ?_, ?_, ?_⟩
    · cases r with
      | nil => simp
      | cons c r => rintro ⟨⟩; exact h1 r rfl
    · cases r with
      | nil => simp
      | cons c r => rintro ⟨⟩; exact h3 r rfl
    · cases r with
      | nil => simp
      | cons c r => rintro ⟨⟩; exact h2 r rfl
    · rintro ⟨t, rfl⟩; exact h4 t rfl

theorem identifier_spec {cs i r : Chars} (h : identifierRule cs = some (i, r)) :
    i ≠ [] ∧ i <+: cs ∧ '[' ∉ i ∧ ']' ∉ i ∧ r <:+ cs := by
  have hm : ∀ c ∈ cs.takeWhile (fun c => c != '[' && c != ']'), c ≠ '[' ∧ c ≠ ']' := by
    intro c hc
    have := List.mem_takeWhile_imp hc
    simpa using this
  have hp := List.takeWhile_prefix (l := cs) (fun c => c != '[' && c != ']')
  have hd := List.dropWhile_suffix (l := cs) (fun c => c != '[' && c != ']')
  simp only [identifierRule] at h
  generalize cs.takeWhile (fun c => c != '[' && c != ']') = i' at h hm hp
  cases i' with
  | nil => cases h
  | cons c i' =>
    cases h
    exact ⟨by simp, hp, fun hc => (hm _ hc).1 rfl, fun hc => (hm _ hc).2 rfl, hd⟩

theorem specialIdRule_spec {cs i r : Chars} (h : specialIdRule cs = some (i, r)) :
    IsSpecialId (String.ofList i) ∧ r <:+ cs := by
  simp only [specialIdRule, Option.bind_eq_bind, Option.bind_eq_some_iff, Prod.exists, Option.some.injEq,
    Prod.mk.injEq] at h
  obtain ⟨r1, h1, i', r2, h2, r3, h3, rfl, rfl⟩ := h
  obtain ⟨a1, a2, a3, a4, a5⟩ := identifier_spec h2
  obtain ⟨b1, b2, b3, b4⟩ := skip_head (cs := r1) rfl
  refine ⟨?_, (lit_suffix h3).trans ((skip_suffix _).trans (a5.trans ((skip_suffix _).trans (lit_suffix h1))))⟩
  obtain ⟨t, ht⟩ := a2
  cases i' with
  | nil => exact absurd rfl a1
  | cons c cs' =>
    rw [← ht] at b1 b2 b3 b4
    refine ⟨c, cs', String.toList_ofList, by rintro rfl; exact b1 rfl, by rintro rfl; exact b2 rfl,
      by rintro rfl; exact b3 rfl, fun hp => b4 (hp.trans (List.prefix_append _ _)), a3, a4⟩

theorem componentRule_spec {cs r : Chars} {c : String × Option String} (h : componentRule cs = some (c, r)) :
    (SysExpr.component c.1 c.2).Writable ∧ r <:+ cs := by
  simp only [componentRule, Option.bind_eq_bind, Option.bind_eq_some_iff, Prod.exists] at h
  obtain ⟨w, r1, h1, h⟩ := h
  obtain ⟨a1, a2⟩ := nameRule_spec h1
  have hw : IsName (String.ofList w) := by rw [IsName, String.toList_ofList]; exact a1
  split at h
  · rename_i i r2 h2
    obtain ⟨b1, b2⟩ := specialIdRule_spec h2
    cases h
    exact ⟨⟨hw, b1⟩, b2.trans ((skip_suffix _).trans a2)⟩
  · cases h
    exact ⟨hw, a2⟩

theorem componentTerm_spec {cs r : Chars} {x : Res SysExpr} (h : componentTerm cs = some (x, r)) :
    (∃ e : SysExpr, x = .ok e ∧ e.Writable) ∧ r <:+ cs := by
  simp only [componentTerm, Option.bind_eq_bind, Option.bind_eq_some_iff, Prod.exists, Option.some.injEq,
    Prod.mk.injEq] at h
  obtain ⟨name, id, r1, h1, rfl, rfl⟩ := h
  obtain ⟨a, b⟩ := componentRule_spec h1
  exact ⟨⟨_, rfl, a⟩, b⟩

theorem sysRule_shrinks (n : Nat) : Shrinks (sysRule n) := by
  induction n with
  | zero => intro cs x r h; cases h
  | succ n ih =>
    exact infixRule_shrinks (oneOf_shrinks _)
      (orElse_shrinks (fun _ _ _ h => (componentTerm_spec h).2) (parens_shrinks ih))

/-- Reading a system expression never panics, and what is read can be written. -/
theorem sysRule_writable {n : Nat} {cs r : Chars} {x : Res SysExpr} (h : sysRule n cs = some (x, r)) :
    ∃ e : SysExpr, x = .ok e ∧ e.Writable := by
  induction n generalizing cs r x with
  | zero => cases h
  | succ n ih =>
    obtain ⟨first, rest, rfl, hf, hr⟩ := infixRule_all (Q := fun x => ∃ e : SysExpr, x = .ok e ∧ e.Writable)
      (oneOf_shrinks _) (orElse_shrinks (fun _ _ _ h => (componentTerm_spec h).2) (parens_shrinks (sysRule_shrinks n))) h
      (by
        intro cs' t r' _ ht
        simp only [orElse] at ht
        split at ht
        · rename_i y hy
          cases ht
          exact (componentTerm_spec hy).1
        · simp only [parens, Option.bind_eq_bind, Option.bind_eq_some_iff, Prod.exists, Option.some.injEq,
            Prod.mk.injEq] at ht
          obtain ⟨r1, _, e, r2, h2, r3, _, rfl, rfl⟩ := ht
          exact ih h2)
    refine prattParse_groups (P := fun _ (x : Res SysExpr) => ∃ e : SysExpr, x = .ok e ∧ e.Writable)
      (Q := fun x => ∃ e : SysExpr, x = .ok e ∧ e.Writable) ?_ ?_ ?_ hf hr
    · rintro _ o _ ⟨a, rfl, ha⟩ ⟨b, rfl, hb⟩
      exact ⟨o.mk a b, rfl, by cases o <;> exact ⟨ha, hb⟩⟩
    · exact fun _ _ _ _ hx => hx
    · exact fun _ hx _ => hx

theorem after_nil : AfterName [] := ⟨ends_nil, by simp, by simp [skip]⟩

/-- Every system expression whose names can be written is printed to a text that is read as the same expression. -/
theorem C32_writable {e : SysExpr} (h : e.Writable) : parseSystem e.print = .ok e := by
  have := SysExpr.reads h (n := e.print.length) e.depth_print after_nil rfl
  rw [List.append_nil] at this
  simp only [parseSystem, this]

/-- **C32.** A system expression that was read from a text is printed to a text that is read as the same expression. -/
theorem C32_roundtrip {cs : Chars} {e : SysExpr} (h : parseSystem cs = .ok e) : parseSystem e.print = .ok e := by
  simp only [parseSystem] at h
  split at h
  · rename_i x r hx
    obtain ⟨e', rfl, he⟩ := sysRule_writable hx
    cases h
    exact C32_writable he
  · cases h

/-- Reading a system expression gives an expression or an error message, never a panic. -/
theorem C32_total (cs : Chars) : (∃ e, parseSystem cs = .ok e) ∨ ∃ m, parseSystem cs = .error (.err m) := by
  simp only [parseSystem]
  split
  · rename_i x r hx
    obtain ⟨e', rfl, _⟩ := sysRule_writable hx
    exact .inl ⟨e', rfl⟩
  · exact .inr ⟨_, rfl⟩

/-! ## Non-vacuity -/

example : parseSystem "A[ 1st one] || B_2 // (C && D) && E rest".toList =
    .ok (.quotient (.composition (.component "A" (some "1st one")) (.component "B_2" none))
      (.conjunction (.conjunction (.component "C" none) (.component "D" none)) (.component "E" none))) := by
  decide +kernel

example : (SysExpr.quotient (.composition (.component "A" (some "1st one")) (.component "B_2" none))
      (.conjunction (.conjunction (.component "C" none) (.component "D" none)) (.component "E" none))).print =
    "((A[1st one] || B_2) \\\\ ((C && D) && E))".toList := by decide +kernel

end Reveaal
