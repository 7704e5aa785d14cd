import Verif.Lemmas.StateText

/-!
# C62: systems and queries are read the way they are written
-/

namespace Reveaal
open Text

/-! ## Systems -/

/-- The operator that a sign stands for -/
def OpSign.op : OpSign → FOp
  | .conjunction => .conjunction
  | .composition => .composition
  | .quotient | .slashes => .quotient

theorem OpSign.prec_op (o : OpSign) : o.op.prec = o.strength := by cases o <;> rfl

theorem OpSign.mk_op (o : OpSign) : o.op.mk = o.apply := by cases o <;> rfl

/-- An operator with the blanks around it -/
abbrev Spaced := List Blank × OpSign × List Blank

/-- The text of it -/
def spacedText (k : Spaced) : Chars := blanks k.1 ++ (k.2.1.text ++ blanks k.2.2)

namespace SysText

/-- The operators outside parentheses -/
def tree : SysText → OpTree SysText Spaced
  | component name id => .leaf (component name id)
  | spaced name b b' id => .leaf (spaced name b b' id)
  | parens b w b' => .leaf (parens b w b')
  | op l b o b' r => .node l.tree (b, o, b') r.tree

theorem tree_write (w : SysText) : w.tree.write text spacedText = w.text := by
  induction w with
  | component name id => rfl
  | spaced name b b' id => rfl
  | parens b w b' => rfl
  | op l b o b' r ihl ihr => simp [tree, OpTree.write, ihl, ihr, spacedText, text]

theorem tree_fits {w : SysText} {p : Nat} (h : w.Grouped p) : w.tree.Fits (fun k => FOp.prec k.2.1.op) p := by
  induction w generalizing p with
  | component name id => trivial
  | spaced name b b' id => trivial
  | parens b w b' => trivial
  | op l b o b' r ihl ihr =>
    show p ≤ o.op.prec ∧ l.tree.Fits _ o.op.prec ∧ r.tree.Fits _ (o.op.prec + 1)
    rw [o.prec_op]
    exact ⟨h.1, ihl h.2.1, ihr h.2.2⟩

theorem tree_fits_one {w : SysText} (h : w.Grouped 0) : w.tree.Fits (fun k => FOp.prec k.2.1.op) 1 := by
  cases w with
  | component name id => trivial
  | spaced name b b' id => trivial
  | parens b w b' => trivial
  | op l b o b' r =>
    have h1 : 1 ≤ o.op.prec := by cases o <;> decide
    exact ⟨h1, (tree_fits h).2⟩

theorem tree_val (w : SysText) :
    (w.tree.both (fun a => (.ok a.meaning : Res SysExpr)) (fun k : Spaced => k.2.1.op)).val
      (fun l o x => lift2 (FOp.mk o) l x) = .ok w.meaning := by
  induction w with
  | component name id => rfl
  | spaced name b b' id => rfl
  | parens b w b' => rfl
  | op l b o b' r ihl ihr =>
    simp only [tree, OpTree.both, OpTree.val, ihl, ihr, meaning, ← OpSign.mk_op]
    rfl

/-- How deeply parentheses are nested -/
def depth : SysText → Nat
  | component _ _ | spaced _ _ _ _ => 0
  | parens _ w _ => w.depth + 1
  | op l _ _ _ r => max l.depth r.depth

theorem depth_text (w : SysText) : w.depth ≤ w.text.length := by
  induction w with
  | component name id => exact Nat.zero_le _
  | spaced name b b' id => exact Nat.zero_le _
  | parens b w b' ih => simp only [depth, text, List.length_cons, List.length_append]; omega
  | op l b o b' r ihl ihr => simp only [depth, text, List.length_append]; omega

theorem leaf_depth {w a : SysText} (h : w.tree.Leaf a) : a.depth ≤ w.depth := by
  induction w with
  | component name id => cases h; exact Nat.le_refl _
  | spaced name b b' id => cases h; exact Nat.le_refl _
  | parens b w b' ih => cases h; exact Nat.le_refl _
  | op l b o b' r ihl ihr =>
    simp only [depth]
    rcases h with h | h
    · have := ihl h; omega
    · have := ihr h; omega

/-- The text begins with a letter or a parenthesis. -/
theorem head {w : SysText} (h : w.meaning.Writable) : ∃ c cs, w.text = c :: cs ∧ (c.isAlpha = true ∨ c = '(') := by
  induction w with
  | component name id =>
    cases id with
    | none => obtain ⟨c, cs, h1, h2, _⟩ := h; exact ⟨c, cs, h1, .inl h2⟩
    | some id =>
      obtain ⟨⟨c, cs, h1, h2, _⟩, _⟩ := h
      exact ⟨c, _, by simp only [text, h1]; rfl, .inl h2⟩
  | spaced name b b' id =>
    obtain ⟨⟨c, cs, h1, h2, _⟩, _⟩ := h
    exact ⟨c, _, by simp only [text, h1]; rfl, .inl h2⟩
  | parens b w b' => exact ⟨'(', _, rfl, .inr rfl⟩
  | op l b o b' r ihl ihr =>
    obtain ⟨c, cs, h1, h2⟩ := ihl (by cases o <;> exact h.1)
    exact ⟨c, _, by simp only [text, h1]; rfl, h2⟩

theorem skip_text {w : SysText} (h : w.meaning.Writable) (rest : Chars) : skip (w.text ++ rest) = w.text ++ rest := by
  obtain ⟨c, cs, h1, h2⟩ := head h
  rw [h1]
  rcases h2 with h2 | rfl
  · exact skip_word (isWord_of_alpha h2)
  · exact skip_cons (by decide)

theorem leaf_writable {w a : SysText} (hw : w.meaning.Writable) (h : w.tree.Leaf a) : a.meaning.Writable := by
  induction w with
  | component name id => cases h; exact hw
  | spaced name b b' id => cases h; exact hw
  | parens b w b' ih => cases h; exact hw
  | op l b o b' r ihl ihr =>
    rcases h with h | h
    · exact ihl (by cases o <;> exact hw.1) h
    · exact ihr (by cases o <;> exact hw.2) h

theorem sign_after (k : Spaced) (rest : Chars) : AfterName (spacedText k ++ rest) := by
  obtain ⟨b, o, b'⟩ := k
  have e : spacedText (b, o, b') ++ rest = blanks b ++ (o.text ++ (blanks b' ++ rest)) := by simp [spacedText]
  rw [e]
  refine after_blanks b ?_
  cases o <;>
    exact ⟨ends_cons (by decide), by simp [OpSign.text], by
      simp only [OpSign.text, List.cons_append]; rw [skip_cons (by decide)]; simp⟩

theorem sign_reads (k : Spaced) {a : SysText} (h : a.meaning.Writable) (rest : Chars) :
    ∃ r, featureOp (skip (spacedText k ++ (a.text ++ rest))) = some (k.2.1.op, r) ∧ skip r = a.text ++ rest := by
  obtain ⟨b, o, b'⟩ := k
  have e : spacedText (b, o, b') ++ (a.text ++ rest) = blanks b ++ (o.text ++ (blanks b' ++ (a.text ++ rest))) := by
    simp [spacedText]
  refine ⟨blanks b' ++ (a.text ++ rest), ?_, by rw [skip_blanks, skip_text h]⟩
  rw [e, skip_blanks]
  cases o <;>
    simp only [OpSign.text, List.cons_append, List.nil_append] <;> rw [skip_cons (by decide)] <;>
    simp [featureOp, oneOf, lit, OpSign.op]

/-- Where the operands can be read, the whole can. -/
theorem reads_of_terms {w : SysText} (hg : w.Grouped 0) (hw : w.meaning.Writable) {n : Nat}
    (ht : ∀ a, w.tree.Leaf a → ∀ rest, AfterName rest → sysTerm n (a.text ++ rest) = some (.ok a.meaning, rest))
    {rest : Chars} (hr : AfterName rest) (hend : featureOp (skip rest) = none) :
    sysRule (n + 1) (w.text ++ rest) = some (.ok w.meaning, rest) := by
  have := infixRule_reads_signs (op := featureOp) (prec := FOp.prec) (mk := FOp.mk) (term := sysTerm n) (leafText := text)
    (opText := spacedText) (sem := fun a => .ok a.meaning) (g := fun k : Spaced => k.2.1.op) (Stop := AfterName) w.tree
    (tree_fits_one hg)
    (by rintro ⟨b, o, b'⟩ h; cases o <;> simp [spacedText, OpSign.text] at h)
    ht (fun k a ha rest => sign_reads k (leaf_writable hw ha) rest) sign_after rest hr hend
  rwa [tree_write, tree_val] at this

/-- Every operand can be read. -/
theorem terms_read {w : SysText} {p : Nat} (hg : w.Grouped p) (hw : w.meaning.Writable) :
    ∀ a, w.tree.Leaf a → ∀ n, a.depth ≤ n → ∀ rest, AfterName rest →
      sysTerm n (a.text ++ rest) = some (.ok a.meaning, rest) := by
  induction w generalizing p with
  | component name id =>
    intro a ha n _ rest hr
    cases ha
    exact SysExpr.term_reads (e := .component name id) hw (Nat.zero_le _) hr |> (by
      cases id <;> exact ·)
  | spaced name b b' id =>
    intro a ha n _ rest hr
    cases ha
    have h1 := CompText.reads (c := ⟨name, some (b, b', id)⟩) hw hr
    have h2 : componentRule ((spaced name b b' id).text ++ rest) = some ((name, some id), rest) := h1
    simp only [sysTerm, orElse, componentTerm, h2, Option.bind_eq_bind, Option.bind_some]
    rfl
  | parens b w b' ih =>
    intro a ha n hn rest hr
    cases ha
    cases n with
    | zero => simp [depth] at hn
    | succ n =>
      have hn' : w.depth ≤ n := by simpa [depth] using hn
      have hclose : skip (blanks b' ++ ')' :: rest) = ')' :: rest := by rw [skip_blanks]; exact skip_cons (by decide)
      have key := reads_of_terms (n := n) hg hw
        (fun a ha rest hr => ih hg hw a ha n ((leaf_depth ha).trans hn') rest hr)
        (rest := blanks b' ++ ')' :: rest) (after_blanks b' (after_close rest)) (by rw [hclose]; rfl)
      have e : (parens b w b').text ++ rest = '(' :: (blanks b ++ (w.text ++ (blanks b' ++ ')' :: rest))) := by
        simp [text]
      rw [e, sysTerm, orElse, componentTerm_paren]
      have hs : skip (blanks b ++ (w.text ++ (blanks b' ++ ')' :: rest))) = w.text ++ (blanks b' ++ ')' :: rest) := by
        rw [skip_blanks, skip_text (w := w) hw]
      simp [Reveaal.parens, lit, hs, key, hclose, meaning]
  | op l b o b' r ihl ihr =>
    intro a ha n hn rest hr
    rcases ha with ha | ha
    · exact ihl hg.2.1 (by cases o <;> exact hw.1) a ha n hn rest hr
    · exact ihr hg.2.2 (by cases o <;> exact hw.2) a ha n hn rest hr

/-- A written system is read, up to any text that cannot continue it. -/
theorem reads {w : SysText} (hg : w.Grouped 0) (hw : w.meaning.Writable) {n : Nat} (hn : w.depth ≤ n) {rest : Chars}
    (hr : AfterName rest) (hend : featureOp (skip rest) = none) :
    sysRule (n + 1) (w.text ++ rest) = some (.ok w.meaning, rest) :=
  reads_of_terms hg hw (fun a ha rest hr => terms_read hg hw a ha n ((leaf_depth ha).trans hn) rest hr) hr hend

end SysText

/-- **C62.** Whatever system a user writes, with or without parentheses and with any blanks, is read as the system they mean: conjunction binds most
tightly, then composition, then quotient, and operators of the same strength group to the left. -/
theorem C62_system {w : SysText} (hg : w.Grouped 0) (hw : w.meaning.Writable) : parseSystem w.text = .ok w.meaning := by
  have := SysText.reads hg hw (n := w.text.length) w.depth_text after_nil rfl
  rw [List.append_nil] at this
  simp only [parseSystem, this]

/-! ## Queries -/

theorem sysText_reads {w : SysText} (hw : w.Grouped 0 ∧ w.meaning.Writable) (b : List Blank) {rest : Chars}
    (hr : AfterName rest) (hend : featureOp (skip rest) = none) :
    sysRule ((blanks b ++ (w.text ++ rest)).length + 1) (skip (blanks b ++ (w.text ++ rest))) =
      some (.ok w.meaning, rest) := by
  rw [skip_blanks, SysText.skip_text hw.2]
  refine SysText.reads hw.1 hw.2 ?_ hr hend
  have := w.depth_text
  simp only [List.length_append]; omega

/-- What may follow a query -/
structure AfterQuery (rest : Chars) : Prop where
  name : AfterName rest
  op : featureOp (skip rest) = none
  save : lit "save-as".toList (skip rest) = none
  part : AfterPart rest
  and : andOp (skip rest) = none

theorem refinement_written (b : List Blank) {l : SysText} (b₁ b₂ : List Blank) {r : SysText}
    (hl : l.Grouped 0 ∧ l.meaning.Writable) (hr : r.Grouped 0 ∧ r.meaning.Writable) {rest : Chars} (h : AfterQuery rest) :
    refinementRule ((QueryWritten.refinement b l b₁ b₂ r).text ++ rest) =
      some (.ok (.refinement l.meaning r.meaning), rest) := by
  have e : (QueryWritten.refinement b l b₁ b₂ r).text ++ rest =
      "refinement:".toList ++ (blanks b ++ (l.text ++ (blanks b₁ ++ ('<' :: '=' :: (blanks b₂ ++ (r.text ++ rest)))))) := by
    unfold QueryWritten.text
    generalize "refinement:".toList = kw
    simp
  have hs : skip (blanks b₁ ++ ('<' :: '=' :: (blanks b₂ ++ (r.text ++ rest)))) =
      '<' :: '=' :: (blanks b₂ ++ (r.text ++ rest)) := by
    rw [skip_blanks]; exact skip_cons (by decide)
  have h1 := sysText_reads hl b (rest := blanks b₁ ++ ('<' :: '=' :: (blanks b₂ ++ (r.text ++ rest))))
    (after_blanks b₁ ⟨ends_cons (by decide), by simp, by rw [skip_cons (by decide)]; simp⟩) (by
      rw [hs]; simp [featureOp, oneOf, lit])
  have h2 := sysText_reads hr b₂ h.name h.op
  have h3 : lit ['<', '='] ('<' :: '=' :: (blanks b₂ ++ (r.text ++ rest))) = some (blanks b₂ ++ (r.text ++ rest)) := by
    simp [lit]
  rw [refinementRule, e, lit_append]
  simp only [Option.bind_eq_bind, Option.bind_some, h1, hs, h3, h2]
  rfl

theorem sysQuery_written (keyword : String) (mk : SysExpr → QueryExpr) (b : List Blank) {w : SysText}
    (hw : w.Grouped 0 ∧ w.meaning.Writable) {rest : Chars} (h : AfterQuery rest) :
    sysQueryRule keyword mk (keyword.toList ++ (blanks b ++ (w.text ++ rest))) = some (.ok (mk w.meaning), rest) := by
  have h1 := sysText_reads hw b h.name h.op
  simp only [sysQueryRule, lit_append, Option.bind_eq_bind, Option.bind_some, h1]
  rfl

theorem saveQuery_written (keyword : String) (mk : SaveExpr → QueryExpr) (b : List Blank) {w : SysText}
    (hw : w.Grouped 0 ∧ w.meaning.Writable) {rest : Chars} (h : AfterQuery rest) :
    saveQueryRule keyword mk (keyword.toList ++ (blanks b ++ (w.text ++ rest))) =
      some (.ok (mk ⟨w.meaning, none⟩), rest) := by
  have h1 := sysText_reads hw b h.name h.op
  simp only [saveQueryRule, lit_append, Option.bind_eq_bind, Option.bind_some, h1, h.save, Option.bind_none]
  rfl

theorem saveQuery_written_as (keyword : String) (mk : SaveExpr → QueryExpr) (b : List Blank) {w : SysText}
    (hw : w.Grouped 0 ∧ w.meaning.Writable) (c : Blank) (b₁ b₂ : List Blank) {name : String} (hn : IsName name)
    {rest : Chars} (h : AfterQuery rest) :
    saveQueryRule keyword mk (keyword.toList ++ (blanks b ++ (w.text ++
      (blanks (c :: b₁) ++ ("save-as".toList ++ (blanks b₂ ++ (name.toList ++ rest))))))) =
      some (.ok (mk ⟨w.meaning, some name⟩), rest) := by
  have hs : skip (blanks (c :: b₁) ++ ("save-as".toList ++ (blanks b₂ ++ (name.toList ++ rest)))) =
      "save-as".toList ++ (blanks b₂ ++ (name.toList ++ rest)) := by
    rw [skip_blanks]; exact skip_cons (c := 's') (by decide)
  have h1 := sysText_reads hw b
    (rest := blanks (c :: b₁) ++ ("save-as".toList ++ (blanks b₂ ++ (name.toList ++ rest))))
    (after_blank c b₁ (by
      rw [show skip ("save-as".toList ++ (blanks b₂ ++ (name.toList ++ rest))) = _ from skip_cons (c := 's') (by decide)]
      simp))
    (by rw [hs]; rfl)
  have h2 : skip (blanks b₂ ++ (name.toList ++ rest)) = name.toList ++ rest := by
    obtain ⟨d, cs, hd, ha, _⟩ := hn
    rw [skip_blanks, hd]
    exact skip_word (isWord_of_alpha ha)
  have h3 := name_reads (isNameText_of hn) h.name.1 h.name.2.1
  simp only [saveQueryRule, lit_append, Option.bind_eq_bind, Option.bind_some, h1, hs, h2, h3, String.ofList_toList]
  rfl

theorem after_arrow (c : Blank) (b : List Blank) (rest : Chars) :
    AfterPart (blanks (c :: b) ++ ('-' :: '>' :: rest)) ∧ andOp (skip (blanks (c :: b) ++ ('-' :: '>' :: rest))) = none ∧
      skip (blanks (c :: b) ++ ('-' :: '>' :: rest)) = '-' :: '>' :: rest := by
  have hs : skip (blanks (c :: b) ++ ('-' :: '>' :: rest)) = '-' :: '>' :: rest := by
    rw [skip_blanks]; exact skip_cons (by decide)
  have hs' : skip ('-' :: '>' :: rest) = '-' :: '>' :: rest := skip_cons (by decide)
  refine ⟨⟨after_blank c b (by rw [hs']; simp), ?_, ?_, ?_, ?_⟩, ?_, hs⟩ <;> rw [hs]
  · intro o r h
    have : r = '>' :: rest := by
      simp only [diffOp, oneOf, lit, if_pos] at h
      cases h
      rfl
    subst this
    rw [skip_cons (by decide)]
    rfl
  · rfl
  · rfl
  · simp
  · rfl

theorem start_written {start : Option StateText} (h : ∀ w ∈ start, w.Fine) (b : List Blank) {rest : Chars}
    (hr : AfterPart rest) (hand : andOp (skip rest) = none) :
    startRule (skip (blanks b ++ (startWritten start ++ rest))) =
      some (start.map fun w => .ok w.meaning, rest) := by
  rw [skip_blanks]
  cases start with
  | some w =>
    have hw := h w rfl
    show startRule (skip (w.text ++ rest)) = _
    rw [StateText.skip_text hw]
    simp only [startRule, StateText.reads hw hr hand, Option.map_some]
  | none =>
    have hi : IsName "init" := isName_of rfl (by decide)
    have h1 := boolDiff_none hi hr.name hr.dot
    have h2 := variable_none hi hr.name hr.dot
    have hsk : skip (startWritten none ++ rest) = "init".toList ++ rest := skip_cons (c := 'i') (by decide)
    rw [hsk]
    set cs := "init".toList ++ rest with hcs
    have h3 : ∀ n, subRule n cs = none := by
      intro n
      have : cs = 'i' :: 'n' :: 'i' :: 't' :: rest := rfl
      rw [this, sub_leaf (by decide) rfl, ← this]
      have h5 : compExprRule cs = none := by simp only [compExprRule, h1, Option.bind_eq_bind, Option.bind_none]
      have h6 : locExprRule cs = none := by simp only [locExprRule, h2, Option.bind_eq_bind, Option.bind_none]
      simp only [orElse, h5, h6]
      rfl
    have h4 : stateRule cs = none := by
      have h7 : ∀ n, boolStateRule n cs = none := by
        intro n
        cases n with
        | zero => rfl
        | succ n =>
          rw [boolStateRule_succ]
          simp only [listRule, orRule, h3, Option.bind_eq_bind, Option.bind_none]
      simp only [stateRule, h7, Option.bind_eq_bind, Option.bind_none]
    simp only [startRule, h4]
    rfl

theorem reachability_written (b : List Blank) {w : SysText} (b₁ b₂ : List Blank) {start : Option StateText} (c : Blank)
    (b₃ b₄ : List Blank) {goal : StateText} (hw : w.Grouped 0 ∧ w.meaning.Writable) (hs : ∀ s ∈ start, s.Fine)
    (hg : goal.Fine) {rest : Chars} (h : AfterQuery rest) :
    reachabilityRule ((QueryWritten.reachability b w b₁ b₂ start c b₃ b₄ goal).text ++ rest) =
      some (.ok (QueryWritten.reachability b w b₁ b₂ start c b₃ b₄ goal).meaning, rest) := by
  have e : (QueryWritten.reachability b w b₁ b₂ start c b₃ b₄ goal).text ++ rest =
      "reachability:".toList ++ (blanks b ++ (w.text ++ (blanks b₁ ++ ('@' :: (blanks b₂ ++ (startWritten start ++
        (blanks (c :: b₃) ++ ('-' :: '>' :: (blanks b₄ ++ (goal.text ++ rest)))))))))) := by
    unfold QueryWritten.text
    generalize "reachability:".toList = kw
    simp
  obtain ⟨h1, h2, h3⟩ := after_arrow c b₃ (blanks b₄ ++ (goal.text ++ rest))
  generalize hu : blanks (c :: b₃) ++ ('-' :: '>' :: (blanks b₄ ++ (goal.text ++ rest))) = u at h1 h2 h3 e
  have h4 := start_written hs b₂ h1 h2
  have h5 : skip (blanks b₁ ++ ('@' :: (blanks b₂ ++ (startWritten start ++ u)))) =
      '@' :: (blanks b₂ ++ (startWritten start ++ u)) := by
    rw [skip_blanks]; exact skip_cons (by decide)
  have h6 := sysText_reads hw b (rest := blanks b₁ ++ ('@' :: (blanks b₂ ++ (startWritten start ++ u))))
    (after_blanks b₁ ⟨ends_cons (by decide), by simp, by rw [skip_cons (by decide)]; simp⟩)
    (by rw [h5]; simp [featureOp, oneOf, lit])
  have h7 : ∀ cs, lit ['@'] ('@' :: cs) = some cs := fun cs => by simp [lit]
  have h8 : ∀ cs, lit ['-', '>'] ('-' :: '>' :: cs) = some cs := fun cs => by simp [lit]
  have h9 : skip (blanks b₄ ++ (goal.text ++ rest)) = goal.text ++ rest := by rw [skip_blanks, StateText.skip_text hg]
  have h10 := StateText.reads hg h.part h.and
  rw [reachabilityRule, e, lit_append]
  simp only [Option.bind_eq_bind, Option.bind_some, h6, h5, h7, h4, h3, h8, h9, h10]
  cases start <;> rfl

theorem QueryWritten.reads {q : QueryWritten} (hq : q.Fine) {rest : Chars} (h : AfterQuery rest) :
    queryRule (q.text ++ rest) = some (.ok q.meaning, rest) := by
  cases q with
  | refinement b l b₁ b₂ r => exact orElse_some (refinement_written b b₁ b₂ hq.1 hq.2 h)
  | about k b w =>
    have e : (QueryWritten.about k b w).text ++ rest = k.keyword.toList ++ (blanks b ++ (w.text ++ rest)) := by
      unfold QueryWritten.text
      simp
    have := sysQuery_written k.keyword k.query b hq h
    rw [e]
    cases k with
    | consistency =>
      rw [queryRule, orElse_none (refinement_none rfl)]
      exact orElse_some this
    | implementation =>
      rw [queryRule, orElse_none (refinement_none rfl), orElse_none (sysQuery_none rfl), orElse_none (reachability_none rfl)]
      exact orElse_some this
    | determinism =>
      rw [queryRule, orElse_none (refinement_none rfl), orElse_none (sysQuery_none rfl), orElse_none (reachability_none rfl),
        orElse_none (sysQuery_none rfl)]
      exact orElse_some this
    | specification =>
      rw [queryRule, orElse_none (refinement_none rfl), orElse_none (sysQuery_none rfl), orElse_none (reachability_none rfl),
        orElse_none (sysQuery_none rfl), orElse_none (sysQuery_none rfl)]
      exact orElse_some this
  | reachability b w b₁ b₂ start c b₃ b₄ goal =>
    rw [queryRule, orElse_none (refinement_none rfl), orElse_none (sysQuery_none rfl)]
    exact orElse_some (reachability_written b b₁ b₂ c b₃ b₄ hq.1 hq.2.1 hq.2.2 h)
  | make k b w =>
    have e : (QueryWritten.make k b w).text ++ rest = k.keyword.toList ++ (blanks b ++ (w.text ++ rest)) := by
      unfold QueryWritten.text
      simp
    have := saveQuery_written k.keyword k.query b hq h
    rw [e, queryRule]
    cases k with
    | getComponent =>
      rw [orElse_none (refinement_none rfl), orElse_none (sysQuery_none rfl), orElse_none (reachability_none rfl),
        orElse_none (sysQuery_none rfl), orElse_none (sysQuery_none rfl), orElse_none (sysQuery_none rfl)]
      exact orElse_some this
    | prune =>
      rw [orElse_none (refinement_none rfl), orElse_none (sysQuery_none rfl), orElse_none (reachability_none rfl),
        orElse_none (sysQuery_none rfl), orElse_none (sysQuery_none rfl), orElse_none (sysQuery_none rfl),
        orElse_none (saveQuery_none rfl)]
      exact orElse_some this
    | bisimMinim =>
      rw [orElse_none (refinement_none rfl), orElse_none (sysQuery_none rfl), orElse_none (reachability_none rfl),
        orElse_none (sysQuery_none rfl), orElse_none (sysQuery_none rfl), orElse_none (sysQuery_none rfl),
        orElse_none (saveQuery_none rfl), orElse_none (saveQuery_none rfl)]
      exact this
  | makeAs k b w c b₁ b₂ name =>
    have e : (QueryWritten.makeAs k b w c b₁ b₂ name).text ++ rest = k.keyword.toList ++ (blanks b ++ (w.text ++
      (blanks (c :: b₁) ++ ("save-as".toList ++ (blanks b₂ ++ (name.toList ++ rest)))))) := by
      unfold QueryWritten.text
      generalize "save-as".toList = kw
      simp
    have := saveQuery_written_as k.keyword k.query b hq.1 c b₁ b₂ hq.2 h
    rw [e, queryRule]
    cases k with
    | getComponent =>
      rw [orElse_none (refinement_none rfl), orElse_none (sysQuery_none rfl), orElse_none (reachability_none rfl),
        orElse_none (sysQuery_none rfl), orElse_none (sysQuery_none rfl), orElse_none (sysQuery_none rfl)]
      exact orElse_some this
    | prune =>
      rw [orElse_none (refinement_none rfl), orElse_none (sysQuery_none rfl), orElse_none (reachability_none rfl),
        orElse_none (sysQuery_none rfl), orElse_none (sysQuery_none rfl), orElse_none (sysQuery_none rfl),
        orElse_none (saveQuery_none rfl)]
      exact orElse_some this
    | bisimMinim =>
      rw [orElse_none (refinement_none rfl), orElse_none (sysQuery_none rfl), orElse_none (reachability_none rfl),
        orElse_none (sysQuery_none rfl), orElse_none (sysQuery_none rfl), orElse_none (sysQuery_none rfl),
        orElse_none (saveQuery_none rfl), orElse_none (saveQuery_none rfl)]
      exact this

theorem QueryWritten.head (q : QueryWritten) : ∃ c cs, q.text = c :: cs ∧ c.isAlpha = true := by
  cases q with
  | refinement b l b₁ b₂ r => exact ⟨'r', _, rfl, by decide⟩
  | about k b w =>
    cases k
    · exact ⟨'c', _, rfl, by decide⟩
    · exact ⟨'i', _, rfl, by decide⟩
    · exact ⟨'d', _, rfl, by decide⟩
    · exact ⟨'s', _, rfl, by decide⟩
  | reachability b w b₁ b₂ start c b₃ b₄ goal => exact ⟨'r', _, rfl, by decide⟩
  | make k b w =>
    cases k
    · exact ⟨'g', _, rfl, by decide⟩
    · exact ⟨'p', _, rfl, by decide⟩
    · exact ⟨'b', _, rfl, by decide⟩
  | makeAs k b w c b₁ b₂ name =>
    cases k
    · exact ⟨'g', _, rfl, by decide⟩
    · exact ⟨'p', _, rfl, by decide⟩
    · exact ⟨'b', _, rfl, by decide⟩

theorem QueryWritten.skip_text (q : QueryWritten) (rest : Chars) : skip (q.text ++ rest) = q.text ++ rest := by
  obtain ⟨c, cs, h1, h2⟩ := q.head
  rw [h1]
  exact skip_word (isWord_of_alpha h2)

theorem afterQuery_rest (qs : List (List Blank × List Blank × QueryWritten)) (e : List Blank) :
    AfterQuery (QueryWritten.textRest qs ++ blanks e) := by
  have he : ∀ cs : Chars, AfterQuery cs → ∀ b, AfterQuery (blanks b ++ cs) := fun cs h b =>
    ⟨after_blanks b h.name, by rw [skip_blanks]; exact h.op, by rw [skip_blanks]; exact h.save,
      after_part_blanks b h.part, by rw [skip_blanks]; exact h.and⟩
  cases qs with
  | nil =>
    have := he [] ⟨after_nil, rfl, rfl, ⟨after_nil, (by intro o r h; cases h), rfl, rfl, by simp [skip]⟩, rfl⟩ e
    rwa [List.append_nil] at this
  | cons q qs =>
    obtain ⟨b, b', q⟩ := q
    have e1 : QueryWritten.textRest ((b, b', q) :: qs) ++ blanks e =
        blanks b ++ (';' :: (blanks b' ++ (q.text ++ (QueryWritten.textRest qs ++ blanks e)))) := by
      simp [QueryWritten.textRest]
    rw [e1]
    generalize blanks b' ++ (q.text ++ (QueryWritten.textRest qs ++ blanks e)) = u
    have hs : skip (';' :: u) = ';' :: u := skip_cons (by decide)
    have hn : AfterName (';' :: u) := ⟨ends_cons (by decide), by simp, by rw [hs]; simp⟩
    refine he _ ⟨hn, ?_, ?_, ⟨hn, ?_, ?_, ?_, ?_⟩, ?_⟩ b <;> rw [hs]
    · rfl
    · rfl
    · intro o r h; cases h
    · rfl
    · rfl
    · simp
    · rfl

theorem queries_written (qs : List (List Blank × List Blank × QueryWritten)) (hq : ∀ q ∈ qs, q.2.2.Fine) (e : List Blank)
    (n : Nat) (hn : qs.length ≤ n) :
    many (oneOf [([';'], ())]) queryRule n (QueryWritten.textRest qs ++ blanks e) =
      (qs.map fun q => ((), .ok q.2.2.meaning), blanks e) := by
  induction qs generalizing n with
  | nil =>
    cases n with
    | zero => rfl
    | succ n =>
      have : skip (blanks e) = [] := by
        have := skip_blanks e []
        rwa [List.append_nil] at this
      simp [QueryWritten.textRest, many, this, oneOf, lit]
  | cons q qs ih =>
    obtain ⟨b, b', q⟩ := q
    cases n with
    | zero => simp at hn
    | succ n =>
      have e1 : QueryWritten.textRest ((b, b', q) :: qs) ++ blanks e =
          blanks b ++ (';' :: (blanks b' ++ (q.text ++ (QueryWritten.textRest qs ++ blanks e)))) := by
        simp [QueryWritten.textRest]
      have h1 : skip (blanks b ++ (';' :: (blanks b' ++ (q.text ++ (QueryWritten.textRest qs ++ blanks e))))) =
          ';' :: (blanks b' ++ (q.text ++ (QueryWritten.textRest qs ++ blanks e))) := by
        rw [skip_blanks]; exact skip_cons (by decide)
      have h2 : skip (blanks b' ++ (q.text ++ (QueryWritten.textRest qs ++ blanks e))) =
          q.text ++ (QueryWritten.textRest qs ++ blanks e) := by
        rw [skip_blanks, QueryWritten.skip_text]
      have h3 := QueryWritten.reads (q := q) (hq (b, b', q) (List.mem_cons_self ..)) (afterQuery_rest qs e)
      have h4 := ih (fun q hq' => hq q (List.mem_cons_of_mem _ hq')) n (by simpa using hn)
      have h5 : ∀ r, oneOf [([';'], ())] (';' :: r) = some ((), r) := fun r => by simp [oneOf, lit]
      rw [e1, many, h1, h5]
      simp only [h2, h3, h4, List.map_cons]

theorem textRest_length (qs : List (List Blank × List Blank × QueryWritten)) :
    qs.length ≤ (QueryWritten.textRest qs).length := by
  induction qs with
  | nil => exact Nat.le_refl _
  | cons q qs ih =>
    obtain ⟨b, b', q⟩ := q
    simp only [QueryWritten.textRest, List.length_cons, List.length_append]; omega

theorem mapM_id_ok {α β : Type} (f : α → β) (l : List α) :
    (l.map fun a => (.ok (f a) : Res β)).mapM id = .ok (l.map f) := by
  induction l with
  | nil => rfl
  | cons a l ih => simp only [List.map_cons, List.mapM_cons, ih]; rfl

/-- **C62 (part).** A list of queries, with any blanks before, between and after them, is read as the queries the user means,
in that order.  The states of reachability queries are conjunctions, with parentheses anywhere, of comparisons of sums,
locations and truth values.  Not covered, and false: disjunctions (`C62_violated_or`), negations (`C62_violated_not`),
components whose names begin with `not` (`C62_violated_name`), and a minus sign or arrow right after a name
(`C62_violated_minus`). -/
theorem C62_queries_partial (b : List Blank) (q : QueryWritten) (qs : List (List Blank × List Blank × QueryWritten)) (e : List Blank)
    (hq : q.Fine) (hqs : ∀ q ∈ qs, q.2.2.Fine) :
    parseQueries (blanks b ++ (q.text ++ (QueryWritten.textRest qs ++ blanks e))) =
      .ok (q.meaning :: qs.map fun q => q.2.2.meaning) := by
  have h1 := QueryWritten.reads hq (afterQuery_rest qs e)
  have hl := textRest_length qs
  have h2 := queries_written qs hqs e (QueryWritten.textRest qs ++ blanks e).length
    (by simp only [List.length_append]; omega)
  have h3 : skip (blanks e) = [] := by
    have := skip_blanks e []
    rwa [List.append_nil] at this
  have h4 := mapM_id_ok (fun q : List Blank × List Blank × QueryWritten => q.2.2.meaning) qs
  simp only [parseQueries, skip_blanks, QueryWritten.skip_text, h1, h2, h3, if_pos, List.map_map]
  have h5 : (qs.map ((fun x : Unit × Res QueryExpr => x.2) ∘ fun q => ((), (.ok q.2.2.meaning : Res QueryExpr)))) =
      qs.map fun q => (.ok q.2.2.meaning : Res QueryExpr) := rfl
  rw [h5, List.mapM_cons, h4]
  rfl

/-- Every system can be written. -/
theorem C62_every (e : SysExpr) : ∃ w : SysText, w.Grouped 0 ∧ w.meaning = e := by
  have : ∀ e : SysExpr, ∃ w : SysText, (∀ p, w.Grouped p) ∧ w.meaning = e := by
    intro e
    have two : ∀ (o : OpSign) (l r : SysExpr), (∃ w : SysText, (∀ p, w.Grouped p) ∧ w.meaning = l) →
        (∃ w : SysText, (∀ p, w.Grouped p) ∧ w.meaning = r) → ∃ w : SysText, (∀ p, w.Grouped p) ∧ w.meaning = o.apply l r := by
      rintro o _ _ ⟨l, hl, rfl⟩ ⟨r, hr, rfl⟩
      exact ⟨.parens [] (.op l [] o [] r) [], fun _ => ⟨Nat.zero_le _, hl _, hr _⟩, rfl⟩
    induction e with
    | component name id => exact ⟨.component name id, fun _ => trivial, rfl⟩
    | composition l r ihl ihr => exact two .composition l r ihl ihr
    | conjunction l r ihl ihr => exact two .conjunction l r ihl ihr
    | quotient l r ihl ihr => exact two .quotient l r ihl ihr
  obtain ⟨w, h1, h2⟩ := this e
  exact ⟨w, h1 0, h2⟩

/-- **C62 is violated** for reachability queries with a disjunction: the text is accepted by the grammar, and then the
program panics. -/
theorem C62_violated_or : ∃ m, parseQueries "reachability: A @ init -> A.L1 || A.L2".toList = .error (.panic m) :=
  ⟨"Expected postfix or infix expression", panicOf_ok (by decide +kernel)⟩

/-- **C62 is violated** for reachability queries with a negation, in the same way. -/
theorem C62_violated_not : ∃ m, parseQueries "reachability: A @ init -> not A.L1".toList = .error (.panic m) :=
  ⟨"internal error: entered unreachable code: Unexpected rule: variable", panicOf_ok (by decide +kernel)⟩

/-- The message of an error -/
def errorOf {α : Type} : Res α → Option String
  | .error (.err m) => some m
  | _ => none

theorem errorOf_ok {α : Type} {r : Res α} {m : String} (h : errorOf r = some m) : r = .error (.err m) := by
  match r, h with
  | .error (.err m), rfl => rfl

/-- **C62 is violated** for a difference or a state with no blank before the `-`: the query is refused. -/
theorem C62_violated_minus :
    (∃ m, parseQueries "reachability: A @ init -> A.x-A.y < 1".toList = .error (.err m)) ∧
    (∃ m, parseQueries "reachability: A @ A.L1->A.L2".toList = .error (.err m)) :=
  ⟨⟨"Could not parse as rule", errorOf_ok (by decide +kernel)⟩, ⟨"Could not parse as rule", errorOf_ok (by decide +kernel)⟩⟩

/-- **C62 is violated** for a component whose name begins with `not`: its location is taken for a negation. -/
theorem C62_violated_name : IsName "notify" ∧
    ∃ m, parseQueries "reachability: notify @ init -> notify.L1".toList = .error (.panic m) :=
  ⟨isName_of rfl (by decide), "internal error: entered unreachable code: Unexpected rule: variable",
    panicOf_ok (by decide +kernel)⟩

/-! ## Non-vacuity -/

/-- A component without an id -/
def nm (s : String) : SysText := .component s none

/-- `A || B && C //(D \\ E) || F\t|| G[2]` -/
def exText : SysText :=
  .op (.op (nm "A") [.space] .composition [.space] (.op (nm "B") [.space] .conjunction [.space] (nm "C"))) [.space] .slashes []
    (.op (.op (.parens [] (.op (nm "D") [.space] .quotient [.space] (nm "E")) []) [.space] .composition [.space] (nm "F"))
      [.tab] .composition [.space] (.component "G" (some "2")))

theorem exText_grouped : exText.Grouped 0 := by simp [exText, nm, SysText.Grouped, OpSign.strength]

theorem exText_writable : exText.meaning.Writable := by
  have n : ∀ c : Char, c.isAlpha = true → IsName (String.ofList [c]) := fun c h =>
    ⟨c, [], String.toList_ofList, h, by simp⟩
  have i : IsSpecialId "2" := ⟨'2', [], rfl, by decide, by decide, by decide, by decide, by decide, by decide⟩
  exact ⟨⟨n 'A' (by decide), n 'B' (by decide), n 'C' (by decide)⟩,
    ⟨⟨n 'D' (by decide), n 'E' (by decide)⟩, n 'F' (by decide)⟩, n 'G' (by decide), i⟩

example : exText.text = "A || B && C //(D \\\\ E) || F\t|| G[2]".toList := by decide +kernel

/-- Two queries: `refinement: A || B && C //(D \\ E) || F\t|| G[2]<= A ;`, and on the next line
`get-component: A save-as Copy`, and a line break -/
def exWritten : QueryWritten × List (List Blank × List Blank × QueryWritten) :=
  (.refinement [.space] exText [] [.space] (nm "A"),
    [([.space], [.newline], .makeAs .getComponent [.space] (nm "A") .space [] [.space] "Copy")])

example : parseQueries (blanks [] ++ (exWritten.1.text ++ (QueryWritten.textRest exWritten.2 ++ blanks [.newline]))) =
    .ok [.refinement exText.meaning (.component "A" none), .getComponent ⟨.component "A" none, some "Copy"⟩] := by
  have a : IsName "A" := ⟨'A', [], rfl, by decide, by simp⟩
  refine C62_queries_partial [] exWritten.1 exWritten.2 [.newline] ⟨⟨exText_grouped, exText_writable⟩, trivial, a⟩ ?_
  intro q hq
  rw [exWritten, List.mem_singleton] at hq
  subst hq
  exact ⟨⟨trivial, a⟩, isName_of rfl (by decide)⟩

/-- `A.x` -/
def vr (c x : String) : VarText := ⟨⟨c, none⟩, [], [], x⟩

/-- `A [ 1] .L1 and ( B.x -A.y+3<= 7&&true )` -/
def exStateText : StateText :=
  .and (.location ⟨⟨"A", some ([.space], [.space], "1")⟩, [.space], [], "L1"⟩) [.space] .word [.space]
    (.parens [.space] (.and
      (.compare ⟨.var (vr "B" "x"), [(⟨[.space], true, []⟩, .var (vr "A" "y")), (⟨[], false, []⟩, .number 3)]⟩ [] .leq [.space]
        ⟨.number 7, []⟩) [] .amps [] (.truth true)) [.space])

example : exStateText.text = "A [ 1] .L1 and ( B.x -A.y+3<= 7&&true )".toList := by decide +kernel

theorem exStateText_fine : exStateText.Fine := by
  have a : IsName "A" := isName_of rfl (by decide)
  have b : IsName "B" := isName_of rfl (by decide)
  have x : IsName "x" := isName_of rfl (by decide)
  have y : IsName "y" := isName_of rfl (by decide)
  have l1 : IsName "L1" := isName_of rfl (by decide)
  have i : IsSpecialId "1" := ⟨'1', [], rfl, by decide, by decide, by decide, by decide, by decide, by decide⟩
  refine ⟨⟨⟨⟨a, i⟩, l1⟩, by decide⟩, ⟨⟨⟨⟨b, x⟩, ?_⟩, (by decide : ¬ _), ?_, by simp⟩, trivial, by simp⟩, by simp⟩
  · intro p hp
    rcases List.mem_cons.1 hp with rfl | hp
    · exact ⟨⟨a, y⟩, by simp⟩
    · rw [List.mem_singleton] at hp
      subst hp
      exact ⟨(by decide : 3 ≤ 2147483647), by simp⟩
  · exact (by decide : 7 ≤ 2147483647)

/-- `reachability: A || B@A [ 1] .L1 and ( B.x -A.y+3<= 7&&true ) ->B.L2` -/
example : parseQueries (blanks [] ++ ((QueryWritten.reachability [.space] (.op (nm "A") [.space] .composition [.space] (nm "B"))
      [] [] (some exStateText) .space [] [] (.location (vr "B" "L2"))).text ++ (QueryWritten.textRest [] ++ blanks []))) =
    .ok [.reachability (.composition (.component "A" none) (.component "B" none))
      (some (.and [.location ⟨"A", some "1", "L1"⟩, .and [.cmp .leq (.sum (.difference (.clock ⟨"B", none, "x"⟩)
        (.clock ⟨"A", none, "y"⟩)) (.number 3)) (.number 7), .bool true]]))
      (.location ⟨"B", none, "L2"⟩)] := by
  have a : IsName "A" := isName_of rfl (by decide)
  have b : IsName "B" := isName_of rfl (by decide)
  have l2 : IsName "L2" := isName_of rfl (by decide)
  refine C62_queries_partial [] _ [] [] ⟨⟨⟨by decide, trivial, trivial⟩, a, b⟩, ?_, ⟨b, l2⟩, (by decide : ¬ _)⟩ (by simp)
  rintro s ⟨⟩
  exact exStateText_fine

/-- Grouping matters: read from left to right the same signs would mean another system. -/
example : exText.meaning = .quotient
    (.composition (.component "A" none) (.conjunction (.component "B" none) (.component "C" none)))
    (.composition (.composition (.quotient (.component "D" none) (.component "E" none)) (.component "F" none))
      (.component "G" (some "2"))) := rfl

end Reveaal
