import Verif.Spec.SystemDecls
import Verif.Lemmas.Split
import Verif.Lemmas.System
import Verif.Lemmas.Compile
import Verif.Props.C27
import Verif.Props.C65

/-!
# C66: system declarations are read as they are written

*For every component, the inputs and outputs that are read are the declared ones, in the order of their declarations.*
-/

namespace Reveaal

/-! ## Splitting -/

theorem splitOnChar_filter {sep : Char} {p : Char → Bool} (hp : p sep = true) : ∀ l : List Char,
    splitOnChar sep (l.filter p) = (splitOnChar sep l).map (·.filter p)
  | [] => by simp [splitOnChar]
  | x :: xs => by
    have ih := splitOnChar_filter hp xs
    by_cases hx : x = sep
    · subst hx
      rw [List.filter_cons_of_pos hp, splitOnChar, if_pos rfl, splitOnChar, if_pos rfl, ih]
      rfl
    · rw [show splitOnChar sep (x :: xs) = (match splitOnChar sep xs with
          | [] => [[x]]
          | w :: ws => (x :: w) :: ws) by rw [splitOnChar, if_neg hx]; rfl]
      cases hs : splitOnChar sep xs with
      | nil => exact absurd hs (splitOnChar_ne_nil _ _)
      | cons w ws =>
        rw [hs] at ih
        dsimp only
        cases hpx : p x with
        | true =>
          rw [List.filter_cons_of_pos hpx, splitOnChar, if_neg hx, ih]
          simp [hpx]
        | false =>
          rw [List.filter_cons_of_neg (by simp [hpx]), ih]
          simp [hpx]

/-- the pieces of a text between blanks and commas -/
def pieces (cs : List Char) : List (List Char) :=
  ((splitOnChar ' ' cs).flatMap (splitOnChar ',')).filter fun w => !w.isEmpty

theorem pieces_blank (a b : List Char) : pieces (a ++ ' ' :: b) = pieces a ++ pieces b := by
  unfold pieces
  rw [splitOnChar_append, List.flatMap_append, List.filter_append]

theorem split_join {sep x : Char} (hx : x ≠ sep) (a b : List Char) : ∃ u w v t, splitOnChar sep a = u ++ [w] ∧
    splitOnChar sep b = v :: t ∧ splitOnChar sep (a ++ x :: b) = u ++ (w ++ x :: v) :: t := by
  induction a with
  | nil =>
    cases hs : splitOnChar sep b with
    | nil => exact absurd hs (splitOnChar_ne_nil _ _)
    | cons v t =>
      refine ⟨[], [], v, t, rfl, rfl, ?_⟩
      rw [List.nil_append, splitOnChar, if_neg hx, hs]
      rfl
  | cons y a ih =>
    obtain ⟨u, w, v, t, h1, h2, h3⟩ := ih
    rw [List.cons_append, splitOnChar, splitOnChar, h3]
    by_cases hy : y = sep
    · rw [if_pos hy, if_pos hy, h1]
      exact ⟨[] :: u, w, v, t, rfl, h2, rfl⟩
    · rw [if_neg hy, if_neg hy, h1]
      cases u with
      | nil => exact ⟨[], y :: w, v, t, rfl, h2, rfl⟩
      | cons u0 u => exact ⟨(y :: u0) :: u, w, v, t, rfl, h2, rfl⟩

theorem pieces_comma (a b : List Char) : pieces (a ++ ',' :: b) = pieces a ++ pieces b := by
  unfold pieces
  obtain ⟨u, w, v, t, h1, h2, h3⟩ := split_join (sep := ' ') (x := ',') (by decide) a b
  rw [h1, h2, h3]
  simp only [List.flatMap_append, List.flatMap_cons, List.flatMap_nil, List.append_nil, List.filter_append,
    splitOnChar_append, List.append_assoc]

theorem pieces_nil : pieces [] = [] := by rfl

theorem pieces_blanks (k : Nat) (cs : List Char) : pieces (List.replicate k ' ' ++ cs) = pieces cs := by
  induction k with
  | zero => rfl
  | succ k ih => rw [List.replicate_succ, List.cons_append, ← List.nil_append (' ' :: _), pieces_blank, pieces_nil, ih]; rfl

theorem pieces_word {w : List Char} (h : w ≠ []) (h1 : ' ' ∉ w) (h2 : ',' ∉ w) : pieces w = [w] := by
  unfold pieces
  rw [splitOnChar_single h1]
  simp only [List.flatMap_cons, List.flatMap_nil, List.append_nil]
  rw [splitOnChar_single h2]
  cases w with
  | nil => exact absurd rfl h
  | cons => rfl

/-! ## Names -/

theorem PlainName.no {s : String} (h : PlainName s) {c : Char} (hc : isWhite c = true ∨ c = ',' ∨ c = ';' ∨ c = '{' ∨ c = '}' ∨
    c = '?' ∨ c = '!') : c ∉ s.toList := by
  intro hm
  obtain ⟨h0, h1, h2, h3, h4, h5, h6⟩ := h.2 c hm
  rcases hc with hc | hc | hc | hc | hc | hc | hc
  · rw [h0] at hc; cases hc
  all_goals contradiction

theorem item_word {i : IoItem} (h : PlainName i.name) : i.text ≠ [] ∧ ' ' ∉ i.text ∧ ',' ∉ i.text ∧ '{' ∉ i.text ∧
    '}' ∉ i.text ∧ '\r' ∉ i.text ∧ '\n' ∉ i.text := by
  unfold IoItem.text
  have e : ∀ c, c ∉ i.name.toList → c ≠ '?' → c ≠ '!' → c ∉ i.name.toList ++ [if i.input then '?' else '!'] := by
    intro c h1 h2 h3 hm
    rcases List.mem_append.1 hm with hm | hm
    · exact h1 hm
    · rw [List.mem_singleton] at hm
      split at hm <;> contradiction
  exact ⟨by simp, e _ (h.no (.inl (by decide))) (by decide) (by decide), e _ (h.no (by simp)) (by decide) (by decide),
    e _ (h.no (by simp)) (by decide) (by decide), e _ (h.no (by simp)) (by decide) (by decide),
    e _ (h.no (.inl (by decide))) (by decide) (by decide), e _ (h.no (.inl (by decide))) (by decide) (by decide)⟩

theorem pieces_items : ∀ {is : List IoItem}, (∀ i ∈ is, PlainName i.name) → pieces (itemsText is) = is.map IoItem.text
  | [], _ => rfl
  | [i], h => by
    obtain ⟨h0, h1, h2, _⟩ := item_word (h i (by simp))
    rw [itemsText]
    cases i.after with
    | zero => rw [List.replicate_zero, List.append_nil, pieces_word h0 h1 h2]; rfl
    | succ k =>
      rw [List.replicate_succ, pieces_blank, pieces_word h0 h1 h2]
      have := pieces_blanks k []
      rw [List.append_nil] at this
      rw [this]
      rfl
  | i :: j :: is, h => by
    obtain ⟨h0, h1, h2, _⟩ := item_word (h i (by simp))
    rw [itemsText, pieces_comma, pieces_blanks, pieces_word h0 h1 h2, pieces_items fun k hk => h k (by simp [hk])]
    rfl

theorem item_chars {i : IoItem} (h : PlainName i.name) {c : Char} (hc : c ∈ i.text) :
    isWhite c = false ∧ c ≠ '{' ∧ c ≠ '}' := by
  obtain ⟨_, _, _, h3, h4, _⟩ := item_word h
  refine ⟨?_, fun e => h3 (e ▸ hc), fun e => h4 (e ▸ hc)⟩
  unfold IoItem.text at hc
  rcases List.mem_append.1 hc with hc | hc
  · exact (h.2 c hc).1
  · rw [List.mem_singleton.1 hc]
    split <;> decide

theorem items_chars : ∀ {is : List IoItem}, (∀ i ∈ is, PlainName i.name) → ∀ c ∈ itemsText is,
    (isWhite c = false ∨ c = ' ') ∧ c ≠ '{' ∧ c ≠ '}'
  | [], _, c, hc => by simp [itemsText] at hc
  | [i], h, c, hc => by
    rw [itemsText] at hc
    rcases List.mem_append.1 hc with hc | hc
    · obtain ⟨h1, h2⟩ := item_chars (h i (by simp)) hc
      exact ⟨.inl h1, h2⟩
    · rw [(List.mem_replicate.1 hc).2]; decide
  | i :: j :: is, h, c, hc => by
    rw [itemsText] at hc
    rcases List.mem_append.1 hc with hc | hc
    · obtain ⟨h1, h2⟩ := item_chars (h i (by simp)) hc
      exact ⟨.inl h1, h2⟩
    · rcases List.mem_cons.1 hc with hc | hc
      · rw [hc]; decide
      · rcases List.mem_append.1 hc with hc | hc
        · rw [(List.mem_replicate.1 hc).2]; decide
        · exact items_chars (fun k hk => h k (by simp [hk])) c hc

/-! ## Lines -/

theorem foldlM_flatMap {α β γ : Type} {f : γ → β → Res γ} {g : α → List β} : ∀ (l : List α) (x : γ),
    l.foldlM (fun x a => (g a).foldlM f x) x = (l.flatMap g).foldlM f x
  | [], x => rfl
  | a :: l, x => by
    rw [List.flatMap_cons, List.foldlM_append, List.foldlM_cons]
    congr 1
    funext y
    exact foldlM_flatMap l y

theorem actions_nonempty (name : String) : ∀ (l : List (List Char)) (spec : SystemSpec),
    l.foldlM (fun spec a => spec.action name a) spec = (l.filter fun w => !w.isEmpty).foldlM (fun spec a => spec.action name a) spec
  | [], _ => rfl
  | w :: l, spec => by
    rw [List.foldlM_cons]
    cases w with
    | nil => exact actions_nonempty name l spec
    | cons x w =>
      rw [List.filter_cons_of_pos (by rfl), List.foldlM_cons]
      congr 1
      funext y
      exact actions_nonempty name l y

/-- what one action adds -/
def SystemSpec.add (spec : SystemSpec) (name : String) (i : IoItem) : SystemSpec :=
  if i.input then { spec with inputs := pushTo spec.inputs name i.name }
  else { spec with outputs := pushTo spec.outputs name i.name }

theorem without_notin {c : Char} {l : List Char} (h : c ∉ l) : without c l = l := by
  unfold without
  rw [List.filter_eq_self]
  intro x hx
  simp only [ne_eq, decide_not, Bool.not_eq_eq_eq_not, Bool.not_true, decide_eq_false_iff_not]
  exact fun e => h (e ▸ hx)

theorem action_item {i : IoItem} (h : PlainName i.name) (spec : SystemSpec) (name : String) :
    spec.action name i.text = .ok (spec.add name i) := by
  obtain ⟨h0, _⟩ := item_word h
  unfold SystemSpec.action
  have he : i.text.isEmpty = false := by cases ht : i.text with
    | nil => exact absurd ht h0
    | cons => rfl
  rw [if_neg (by rw [he]; exact Bool.false_ne_true)]
  have hl : i.text.getLast? = some (if i.input then '?' else '!') := by unfold IoItem.text; simp
  rw [hl]
  unfold SystemSpec.add IoItem.text
  cases i.input with
  | true =>
    simp only [if_true]
    have : without '?' (i.name.toList ++ ['?']) = i.name.toList := by
      unfold without
      rw [List.filter_append]
      have := without_notin (h.no (c := '?') (by simp))
      unfold without at this
      rw [this]
      simp
    rw [this, String.ofList_toList]
  | false =>
    simp only [Bool.false_eq_true, if_false]
    rw [if_neg (by decide), if_pos trivial]
    have : without '!' (i.name.toList ++ ['!']) = i.name.toList := by
      unfold without
      rw [List.filter_append]
      have := without_notin (h.no (c := '!') (by simp))
      unfold without at this
      rw [this]
      simp
    rw [this, String.ofList_toList]

theorem actions_items (name : String) : ∀ {is : List IoItem}, (∀ i ∈ is, PlainName i.name) → ∀ spec : SystemSpec,
    (is.map IoItem.text).foldlM (fun spec a => spec.action name a) spec = .ok (is.foldl (fun spec i => spec.add name i) spec)
  | [], _, _ => rfl
  | i :: is, h, spec => by
    rw [List.map_cons, List.foldlM_cons, action_item (h i (by simp)), ok_bind, List.foldl_cons]
    exact actions_items name (fun k hk => h k (by simp [hk])) _

/-- what a reader must do with the ends of lines -/
structure SystemReader.Ends (R : SystemReader) (eol : List Char) : Prop where
  chars : ∀ c ∈ eol, c = '\r'
  drop : ∀ c ∈ eol, R.dropName c = true ∧ R.dropAction c = true
  skip : eol = [] ∨ R.skips eol = true
  names : ∀ c, isWhite c = false → R.dropName c = false
  actions : ∀ c, isWhite c = false ∨ c = ' ' → R.dropAction c = false
  lines : ∀ l c, c ∈ l → isWhite c = false → R.skips l = false

theorem json_ends : jsonSystem.Ends [] :=
  ⟨by simp, by simp, .inl rfl, fun _ _ => rfl, fun _ _ => rfl, fun _ _ _ _ => rfl⟩

theorem xml_ends {eol : List Char} (h : eol = [] ∨ eol = ['\r']) : xmlSystem.Ends eol where
  chars := by rcases h with rfl | rfl <;> simp
  drop := by
    rcases h with rfl | rfl
    · simp
    · intro c hc
      rw [List.mem_singleton.1 hc]
      exact ⟨by decide, by decide⟩
  skip := by
    rcases h with rfl | rfl
    · exact .inl rfl
    · exact .inr (by decide)
  names c hc := hc
  actions c hc := by
    show (c == '\r') = false
    rw [beq_eq_false_iff_ne]
    rintro rfl
    rcases hc with hc | hc
    · revert hc; decide
    · revert hc; decide
  lines l c hm hc := by
    show l.all isWhite = false
    rw [List.all_eq_false]
    exact ⟨c, hm, by simp [hc]⟩

theorem pieces_io {R : SystemReader} {eol : List Char} (hR : R.Ends eol) {is : List IoItem} (h : ∀ i ∈ is, PlainName i.name) (k : Nat) :
    ((splitOnChar ' ' ('{' :: (List.replicate k ' ' ++ (itemsText is ++ ['}'])) ++ eol)).flatMap fun w =>
      splitOnChar ',' (without '}' ((without '{' w).filter fun c => !R.dropAction c))).filter (fun w => !w.isEmpty) =
    is.map IoItem.text := by
  have hw : ∀ w : List Char, without '}' ((without '{' w).filter fun c => !R.dropAction c) =
      w.filter fun c => c ≠ '}' && (!R.dropAction c && c ≠ '{') := by
    intro w
    unfold without
    rw [List.filter_filter, List.filter_filter]
    simp [Bool.and_assoc]
  simp only [hw]
  have hp : (fun c : Char => c ≠ '}' && (!R.dropAction c && c ≠ '{')) ' ' = true := by
    simp [hR.actions ' ' (.inr rfl)]
  have := splitOnChar_filter (sep := ' ') (p := fun c : Char => c ≠ '}' && (!R.dropAction c && c ≠ '{')) (l := '{' :: (List.replicate k ' ' ++ (itemsText is ++ ['}'])) ++ eol) hp
  rw [← List.flatMap_map (f := fun w : List Char => w.filter fun c => c ≠ '}' && (!R.dropAction c && c ≠ '{')), ← this]
  show pieces _ = _
  have he : (('{' :: (List.replicate k ' ' ++ (itemsText is ++ ['}'])) ++ eol).filter
      fun c => c ≠ '}' && (!R.dropAction c && c ≠ '{')) = List.replicate k ' ' ++ itemsText is := by
    have e1 : eol.filter (fun c => c ≠ '}' && (!R.dropAction c && c ≠ '{')) = [] := by
      rw [List.filter_eq_nil_iff]
      intro c hc
      simp [(hR.drop c hc).2]
    have e2 : (itemsText is).filter (fun c => c ≠ '}' && (!R.dropAction c && c ≠ '{')) = itemsText is := by
      rw [List.filter_eq_self]
      intro c hc
      obtain ⟨h1, h2, h3⟩ := items_chars h c hc
      simp [hR.actions c h1, h2, h3]
    have e3 : (List.replicate k ' ').filter (fun c => c ≠ '}' && (!R.dropAction c && c ≠ '{')) = List.replicate k ' ' := by
      rw [List.filter_eq_self]
      intro c hc
      rw [(List.mem_replicate.1 hc).2]
      exact hp
    rw [List.filter_append, e1, List.append_nil, List.filter_cons_of_neg (by simp), List.filter_append, List.filter_append, e2, e3]
    simp
  rw [he, pieces_blanks, pieces_items h]

/-- a line that is skipped -/
theorem line_skipped {R : SystemReader} {eol : List Char} (hR : R.Ends eol) {l : DeclLine}
    (h : l = .empty ∨ ∃ c, l = .comment c ∧ '\n' ∉ c) (st : SpecState) : R.line st (l.text ++ eol) = .ok st := by
  unfold SystemReader.line
  rw [if_pos]
  rcases h with rfl | ⟨c, rfl, _⟩
  · unfold DeclLine.text
    rw [List.nil_append]
    rcases hR.skip with h | h
    · rw [h]; rfl
    · rw [h, Bool.or_true]
  · rfl

theorem isPrefixOf_cons {a b : Char} {l : List Char} (h : b ≠ '/') : "//".toList.isPrefixOf (b :: l) = false := by
  show ['/', '/'].isPrefixOf (b :: l) = false
  rw [List.isPrefixOf]
  simp [h.symm]

theorem split_io {c : String} {k : Nat} {is : List IoItem} {eol : List Char} (hc : PlainName c) :
    splitOnChar ' ' ((DeclLine.io c k is).text ++ eol) =
      ['I', 'O'] :: c.toList :: splitOnChar ' ' ('{' :: (List.replicate k ' ' ++ (itemsText is ++ ['}'])) ++ eol) := by
  have e : (DeclLine.io c k is).text ++ eol =
      ['I', 'O'] ++ ' ' :: (c.toList ++ ' ' :: ('{' :: (List.replicate k ' ' ++ (itemsText is ++ ['}'])) ++ eol)) := by
    unfold DeclLine.text
    simp only [List.cons_append, List.append_assoc, List.nil_append]
  rw [e, splitOnChar_append, splitOnChar_append, splitOnChar_single (l := ['I', 'O']) (by decide),
    splitOnChar_single (hc.no (.inl (by decide)))]
  rfl

theorem io_not_skipped {R : SystemReader} {eol : List Char} (hR : R.Ends eol) {c : String} {k : Nat} {is : List IoItem} :
    ("//".toList.isPrefixOf ((DeclLine.io c k is).text ++ eol) || ((DeclLine.io c k is).text ++ eol).isEmpty ||
      R.skips ((DeclLine.io c k is).text ++ eol)) = false := by
  rw [hR.lines _ 'I' (by unfold DeclLine.text; simp) (by decide)]
  unfold DeclLine.text
  rw [List.cons_append, isPrefixOf_cons (a := 'I') (by decide)]
  rfl

/-- the line of a component that has not been named -/
theorem line_unknown {R : SystemReader} {eol : List Char} (hR : R.Ends eol) {c : String} {k : Nat} {is : List IoItem}
    (hc : PlainName c) {names : List (List Char)} (hn : c.toList ∉ names) (spec : SystemSpec) :
    R.line ⟨some names, spec⟩ ((DeclLine.io c k is).text ++ eol) = .error (.panic "Was not able to find component name") := by
  unfold SystemReader.line
  rw [if_neg (by rw [io_not_skipped hR]; exact Bool.false_ne_true)]
  dsimp only
  rw [ok_bind, split_io hc, if_pos (by rfl)]
  unfold SystemReader.ioLine
  dsimp only [List.tail, Option.getD]
  rw [if_neg (by simpa using hn)]
  rfl

/-- a line that declares inputs and outputs -/
theorem line_io {R : SystemReader} {eol : List Char} (hR : R.Ends eol) {c : String} {k : Nat} {is : List IoItem}
    (hc : PlainName c) (h : ∀ i ∈ is, PlainName i.name) {names : List (List Char)} (hn : c.toList ∈ names) (spec : SystemSpec) :
    R.line ⟨some names, spec⟩ ((DeclLine.io c k is).text ++ eol) =
      .ok ⟨some names, is.foldl (fun spec i => spec.add c i) spec⟩ := by
  unfold SystemReader.line
  rw [if_neg (by rw [io_not_skipped hR]; exact Bool.false_ne_true)]
  dsimp only
  rw [ok_bind, split_io hc, if_pos (by rfl)]
  unfold SystemReader.ioLine
  dsimp only [List.tail, Option.getD]
  rw [if_pos (by simpa using hn), foldlM_flatMap, actions_nonempty, pieces_io hR h, String.ofList_toList, actions_items c h]
  rfl

theorem systemText_eq (n0 : String) (ns : List String) :
    systemText (n0 :: ns) = "system".toList ++ ' ' :: (n0.toList ++ ((ns.flatMap fun n => ',' :: ' ' :: n.toList) ++ [';'])) := by
  have ei : ∀ (n : String) (ns : List String), [','].intercalate ((n :: ns).map fun n => ' ' :: n.toList) =
      ' ' :: (n.toList ++ ns.flatMap fun n => ',' :: ' ' :: n.toList) := by
    intro n ns
    induction ns generalizing n with
    | nil => simp [List.intercalate]
    | cons m ns ih =>
      have := ih m
      rw [List.map_cons, List.map_cons, List.intercalate_cons_cons, ← List.map_cons (f := fun n : String => ' ' :: n.toList), this]
      simp
  unfold systemText
  rw [ei]
  simp

/-- the line that names the components -/
theorem line_system {R : SystemReader} {eol : List Char} (hR : R.Ends eol) {names : List String} (h0 : names ≠ [])
    (h : ∀ n ∈ names, PlainName n) (spec : SystemSpec) :
    R.line ⟨none, spec⟩ (systemText names ++ eol) =
      .ok ⟨some ("system".toList :: names.map String.toList), { spec with components := spec.components ++ names }⟩ := by
  obtain ⟨n0, ns, rfl⟩ := List.exists_cons_of_ne_nil h0
  -- the text after the first blank
  let rest : List Char := n0.toList ++ ((ns.flatMap fun n => ',' :: ' ' :: n.toList) ++ ';' :: eol)
  have et : systemText (n0 :: ns) ++ eol = "system".toList ++ ' ' :: rest := by
    rw [systemText_eq]
    simp [rest]
  have hs : splitOnChar ' ' (systemText (n0 :: ns) ++ eol) = "system".toList :: splitOnChar ' ' rest := by
    rw [et, splitOnChar_append, splitOnChar_single (l := "system".toList) (by decide)]
    rfl
  have hp : (splitOnChar ' ' rest).map (fun w => without ';' (without ',' (w.filter fun c => !R.dropName c))) =
      (n0 :: ns).map String.toList := by
    have e1 : (splitOnChar ' ' rest).map (fun w => without ';' (without ',' (w.filter fun c => !R.dropName c))) =
        (splitOnChar ' ' rest).map (fun w => w.filter fun c => c = ' ' || (c ≠ ';' && (c ≠ ',' && !R.dropName c))) := by
      refine List.map_congr_left fun w hw => ?_
      unfold without
      rw [List.filter_filter, List.filter_filter]
      refine List.filter_congr fun c hc => ?_
      have : c ≠ ' ' := fun e => (splitOnChar_mem hw).1 (e ▸ hc)
      simp [this, Bool.and_assoc]
    rw [e1, ← splitOnChar_filter (by simp)]
    have hn : ∀ n : String, PlainName n → n.toList.filter (fun c => c = ' ' || (c ≠ ';' && (c ≠ ',' && !R.dropName c))) = n.toList := by
      intro n hn
      rw [List.filter_eq_self]
      intro c hc
      obtain ⟨a1, a2, a3, _⟩ := hn.2 c hc
      simp [a2, a3, hR.names c a1]
    have he : eol.filter (fun c => c = ' ' || (c ≠ ';' && (c ≠ ',' && !R.dropName c))) = [] := by
      rw [List.filter_eq_nil_iff]
      intro c hc
      have h1 : c ≠ ' ' := by rw [hR.chars c hc]; decide
      rw [(hR.drop c hc).1]
      simp [h1]
    have e2 : rest.filter (fun c => c = ' ' || (c ≠ ';' && (c ≠ ',' && !R.dropName c))) =
        n0.toList ++ ns.flatMap fun n => ' ' :: n.toList := by
      have e3 : ∀ ns : List String, (∀ n ∈ ns, PlainName n) →
          (ns.flatMap fun n => ',' :: ' ' :: n.toList).filter (fun c => c = ' ' || (c ≠ ';' && (c ≠ ',' && !R.dropName c))) =
          ns.flatMap fun n => ' ' :: n.toList := by
        intro ns
        induction ns with
        | nil => intro _; rfl
        | cons n ns ih =>
          intro h
          rw [List.flatMap_cons, List.filter_append, ih fun m hm => h m (by simp [hm]), List.filter_cons_of_neg (by simp),
            List.filter_cons_of_pos (by simp), hn n (h n (by simp)), List.flatMap_cons]
      show (n0.toList ++ ((ns.flatMap fun n => ',' :: ' ' :: n.toList) ++ ';' :: eol)).filter _ = _
      rw [List.filter_append, List.filter_append, hn n0 (h n0 (by simp)), e3 ns fun n hn => h n (by simp [hn]),
        List.filter_cons_of_neg (by simp), he, List.append_nil]
    rw [e2]
    have e4 : ∀ (n : String) (ns : List String), (∀ m ∈ n :: ns, PlainName m) →
        splitOnChar ' ' (n.toList ++ ns.flatMap fun n => ' ' :: n.toList) = (n :: ns).map String.toList := by
      intro n ns
      induction ns generalizing n with
      | nil =>
        intro h
        rw [List.flatMap_nil, List.append_nil, splitOnChar_single ((h n (by simp)).no (.inl (by decide)))]
        rfl
      | cons m ns ih =>
        intro h
        rw [List.flatMap_cons, List.cons_append, splitOnChar_append, splitOnChar_single ((h n (by simp)).no (.inl (by decide))),
          ih m fun k hk => h k (by simp only [List.mem_cons] at hk ⊢; tauto)]
        rfl
    exact e4 n0 ns h
  unfold SystemReader.line
  have h1 : ("//".toList.isPrefixOf (systemText (n0 :: ns) ++ eol) || (systemText (n0 :: ns) ++ eol).isEmpty ||
      R.skips (systemText (n0 :: ns) ++ eol)) = false := by
    rw [hR.lines _ 's' (by rw [et]; simp) (by decide), et]
    show ("//".toList.isPrefixOf ('s' :: _) || _ || _) = false
    rw [isPrefixOf_cons (a := 's') (by decide)]
    rfl
  rw [if_neg (by rw [h1]; exact Bool.false_ne_true)]
  dsimp only
  have hsys : "system".toList.filter (fun c => !R.dropName c) = "system".toList := by
    rw [List.filter_eq_self]
    intro c hc
    have : isWhite c = false := by
      revert hc
      revert c
      decide
    simp [hR.names c this]
  rw [hs, List.map_cons, hsys, if_pos (by rfl), ok_bind]
  rw [if_neg (by rw [List.head?_cons]; decide)]
  rw [List.tail_cons, List.map_map, show (fun w => without ';' (without ',' w)) ∘ (fun w : List Char => w.filter fun c => !R.dropName c) =
    fun w => without ';' (without ',' (w.filter fun c => !R.dropName c)) from rfl, hp, List.map_map]
  congr 3
  simp

theorem split_lines : ∀ {ls : List (List Char)}, ls ≠ [] → (∀ l ∈ ls, '\n' ∉ l) → splitOnChar '\n' (['\n'].intercalate ls) = ls
  | [l], _, h => by simp [List.intercalate, splitOnChar_single (h l (by simp))]
  | l :: m :: ls, _, h => by
    rw [List.intercalate_cons_cons, List.append_assoc, List.singleton_append, splitOnChar_append,
      splitOnChar_single (h l (by simp)), split_lines (by simp) fun k hk => h k (by simp only [List.mem_cons] at hk ⊢; tauto)]
    rfl

/-! ## What has been declared -/

/-- `spec` holds what the lines declare -/
def SystemSpec.Holds (spec : SystemSpec) (ls : List DeclLine) : Prop :=
  ∀ k, (spec.inputs.lookup k = if declaredIo true ls k = [] then none else some (declaredIo true ls k)) ∧
    (spec.outputs.lookup k = if declaredIo false ls k = [] then none else some (declaredIo false ls k))

theorem lookup_pushTo (m : List (String × List String)) (k v x : String) :
    (pushTo m k v).lookup x = if x = k then some ((m.lookup k).getD [] ++ [v]) else m.lookup x := by
  unfold pushTo
  rw [lookup_hmInsert]

theorem holds_items {ls : List DeclLine} {c : String} {n : Nat} : ∀ (is done : List IoItem) (spec : SystemSpec),
    spec.Holds (ls ++ [.io c n done]) → (is.foldl (fun spec i => spec.add c i) spec).Holds (ls ++ [.io c n (done ++ is)])
  | [], done, spec, h => by simpa using h
  | i :: is, done, spec, h => by
    rw [List.foldl_cons]
    have e : done ++ i :: is = (done ++ [i]) ++ is := by simp
    rw [e]
    refine holds_items is (done ++ [i]) _ fun k => ?_
    have hio : ∀ b k, declaredIo b (ls ++ [.io c n (done ++ [i])]) k =
        declaredIo b (ls ++ [.io c n done]) k ++ if k = c ∧ i.input = b then [i.name] else [] := by
      intro b k
      unfold declaredIo
      simp only [List.flatMap_append, List.flatMap_cons, List.flatMap_nil, List.append_nil, List.append_assoc, List.filter_append,
        List.map_append]
      congr 1
      by_cases hk : c = k
      · subst hk
        cases hi : i.input <;> cases b <;> simp [hi]
      · simp [hk, Ne.symm hk]
    have hk := h k
    have hc := h c
    have hget : ∀ {m : List (String × List String)} {l : List String},
        m.lookup c = (if l = [] then none else some l) → (m.lookup c).getD [] = l := by
      intro m l e
      rw [e]
      split
      · rename_i h; rw [h]; rfl
      · rfl
    unfold SystemSpec.add
    rw [hio, hio]
    cases hi : i.input with
    | true =>
      simp only [if_true, lookup_pushTo]
      refine ⟨?_, ?_⟩
      · by_cases hkc : k = c
        · subst hkc
          rw [if_pos rfl, hget hk.1]
          simp
        · rw [if_neg hkc, hk.1]
          simp [hkc]
      · rw [hk.2]
        simp
    | false =>
      simp only [Bool.false_eq_true, if_false, lookup_pushTo]
      refine ⟨?_, ?_⟩
      · rw [hk.1]
        simp
      · by_cases hkc : k = c
        · subst hkc
          rw [if_pos rfl, hget hk.2]
          simp
        · rw [if_neg hkc, hk.2]
          simp [hkc]

theorem holds_skip {ls : List DeclLine} {l : DeclLine} {spec : SystemSpec} (h : spec.Holds ls)
    (hl : ∀ b k, declaredIo b [l] k = []) : spec.Holds (ls ++ [l]) := by
  intro k
  have : ∀ b, declaredIo b (ls ++ [l]) k = declaredIo b ls k := by
    intro b
    have := hl b k
    unfold declaredIo at this ⊢
    rw [List.flatMap_append, this, List.append_nil]
  rw [this, this]
  exact h k

theorem add_components (c : String) : ∀ (is : List IoItem) (spec : SystemSpec),
    (is.foldl (fun spec i => spec.add c i) spec).components = spec.components
  | [], _ => rfl
  | i :: is, spec => by
    rw [List.foldl_cons, add_components c is]
    unfold SystemSpec.add
    split <;> rfl

/-- the lines after the one that names the components -/
theorem lines_read {R : SystemReader} {eol : List Char} (hR : R.Ends eol) {names : List String} (hp : ∀ n ∈ names, PlainName n) :
    ∀ (ls done : List DeclLine) (spec : SystemSpec),
      (∀ l ∈ ls, l = .empty ∨ (∃ c, l = .comment c ∧ '\n' ∉ c) ∨ ∃ c k is, l = .io c k is ∧ c ∈ names ∧ ∀ i ∈ is, PlainName i.name) →
      spec.Holds done → ∃ spec', (ls.map fun l => l.text ++ eol).foldlM R.line ⟨some ("system".toList :: names.map String.toList), spec⟩ =
        .ok ⟨some ("system".toList :: names.map String.toList), spec'⟩ ∧ spec'.Holds (done ++ ls) ∧ spec'.components = spec.components
  | [], done, spec, _, h => ⟨spec, rfl, by simpa using h, rfl⟩
  | l :: ls, done, spec, hl, h => by
    rw [List.map_cons, List.foldlM_cons]
    have hrest := fun m hm => hl m (List.mem_cons_of_mem _ hm)
    have e : done ++ l :: ls = (done ++ [l]) ++ ls := by simp
    rw [e]
    rcases hl l (by simp) with h1 | h1 | ⟨c, k, is, rfl, hc, hi⟩
    · rw [line_skipped hR (.inl h1), ok_bind]
      exact lines_read hR hp ls _ spec hrest (holds_skip h fun b k => by rw [h1]; rfl)
    · rw [line_skipped hR (.inr h1), ok_bind]
      obtain ⟨t, rfl, _⟩ := h1
      exact lines_read hR hp ls _ spec hrest (holds_skip h fun b k => rfl)
    · rw [line_io hR (hp c hc) hi (List.mem_cons_of_mem _ (List.mem_map_of_mem hc)), ok_bind]
      have h2 : (is.foldl (fun spec i => spec.add c i) spec).Holds (done ++ [.io c k is]) := by
        have := holds_items (ls := done) (c := c) (n := k) is [] spec (holds_skip h fun b k => by
          unfold declaredIo
          simp)
        simpa using this
      obtain ⟨spec', a1, a2, a3⟩ := lines_read hR hp ls _ _ hrest h2
      exact ⟨spec', a1, a2, a3.trans (add_components c is spec)⟩

theorem lines_before {R : SystemReader} {eol : List Char} (hR : R.Ends eol) (st : SpecState) : ∀ ls : List DeclLine,
    (∀ l ∈ ls, l = .empty ∨ ∃ c, l = .comment c ∧ '\n' ∉ c) → (ls.map fun l => l.text ++ eol).foldlM R.line st = .ok st
  | [], _ => rfl
  | l :: ls, h => by
    rw [List.map_cons, List.foldlM_cons, line_skipped hR (h l (by simp)), ok_bind]
    exact lines_before hR st ls fun m hm => h m (List.mem_cons_of_mem _ hm)

theorem systemText_chars : ∀ {names : List String}, (∀ n ∈ names, PlainName n) → '\n' ∉ systemText names
  | [], _ => by decide
  | n0 :: ns, h => by
    intro hm
    have hn : ∀ n ∈ n0 :: ns, '\n' ∉ n.toList := fun n hn => (h n hn).no (.inl (by decide))
    rw [systemText_eq] at hm
    rcases List.mem_append.1 hm with hm | hm
    · revert hm; decide
    · have h1 := hn n0 (by simp)
      simp only [List.mem_cons, List.mem_append, h1, List.mem_flatMap, List.not_mem_nil, or_false, false_or] at hm
      rcases hm with hm | ⟨n, hm, h2⟩ | hm
      · revert hm; decide
      · rcases h2 with h2 | h2 | h2
        · revert h2; decide
        · revert h2; decide
        · exact hn n (by simp [hm]) h2
      · revert hm; decide

theorem declLine_chars {names : List String} (hp : ∀ n ∈ names, PlainName n) {l : DeclLine}
    (h : l = .empty ∨ (∃ c, l = .comment c ∧ '\n' ∉ c) ∨ ∃ c k is, l = .io c k is ∧ c ∈ names ∧ ∀ i ∈ is, PlainName i.name) :
    '\n' ∉ l.text := by
  rcases h with rfl | ⟨c, rfl, h⟩ | ⟨c, k, is, rfl, hc, hi⟩
  · simp [DeclLine.text]
  · simp [DeclLine.text, h]
  · intro hm
    have h1 : '\n' ∉ c.toList := (hp c hc).no (.inl (by decide))
    have h2 : '\n' ∉ itemsText is := fun hm => by
      rcases (items_chars hi _ hm).1 with h | h
      · revert h; decide
      · revert h; decide
    simp [DeclLine.text, h1, h2, List.mem_replicate] at hm

/-! ## The property -/

theorem split_text {t : SystemText} {eol : List Char} (he : '\n' ∉ eol) (hp : ∀ n ∈ t.names, PlainName n)
    (h1 : ∀ l ∈ t.before, '\n' ∉ l.text) (h2 : ∀ l ∈ t.lines, '\n' ∉ l.text) :
    splitOnChar '\n' (t.text eol) =
      t.before.map (fun l => l.text ++ eol) ++ ((systemText t.names ++ eol) :: t.lines.map fun l => l.text ++ eol) := by
  unfold SystemText.text
  rw [split_lines]
  · simp [Function.comp_def]
  · simp
  · intro l hl
    obtain ⟨m, hm, rfl⟩ := List.mem_map.1 hl
    rw [List.mem_append, not_or]
    refine ⟨?_, he⟩
    rcases List.mem_append.1 hm with hm | hm
    · obtain ⟨d, hd, rfl⟩ := List.mem_map.1 hm
      exact h1 d hd
    · rcases List.mem_cons.1 hm with rfl | hm
      · exact systemText_chars hp
      · obtain ⟨d, hd, rfl⟩ := List.mem_map.1 hm
        exact h2 d hd

theorem SystemReader.Ends.newline {R : SystemReader} {eol : List Char} (hR : R.Ends eol) : '\n' ∉ eol :=
  fun h => absurd (hR.chars _ h) (by decide)

/-- **C66.** System declarations are read as they are written: the components are the ones named, and the inputs and outputs of
each are the actions listed for it, in the order of the lines. `R` is either reader, `eol` an end of line it can cope with. -/
theorem declared_read {R : SystemReader} {eol : List Char} (hR : R.Ends eol) {t : SystemText} (ht : t.Proper) :
    ∃ spec, R.decode (t.text eol) = .ok spec ∧ spec.components = t.names ∧
      ∀ k, (spec.inputs.lookup k = if declaredIo true t.lines k = [] then none else some (declaredIo true t.lines k)) ∧
        (spec.outputs.lookup k = if declaredIo false t.lines k = [] then none else some (declaredIo false t.lines k)) := by
  obtain ⟨spec, h1, h2, h3⟩ := lines_read hR ht.plain t.lines [] ⟨[] ++ t.names, [], []⟩ ht.lines fun k => ⟨rfl, rfl⟩
  refine ⟨spec, ?_, h3, h2⟩
  unfold SystemReader.decode
  rw [split_text hR.newline ht.plain (fun l hl => declLine_chars ht.plain ((ht.before l hl).imp_right .inl))
    fun l hl => declLine_chars ht.plain (ht.lines l hl), List.foldlM_append, lines_before hR _ _ ht.before, ok_bind, List.foldlM_cons,
    line_system hR ht.named ht.plain, ok_bind, h1, ok_bind]

/-- inputs and outputs of a component that is not named are an error, whatever follows -/
theorem unknown_read {R : SystemReader} {eol : List Char} (hR : R.Ends eol) {t : SystemText} (ht : t.Proper) {c : String} {k : Nat}
    {is : List IoItem} {more : List DeclLine} (hc : PlainName c) (hi : ∀ i ∈ is, PlainName i.name) (hm : ∀ l ∈ more, '\n' ∉ l.text)
    (hn : c ∉ t.names) (hs : c ≠ "system") :
    R.decode (SystemText.text { t with lines := t.lines ++ .io c k is :: more } eol) =
      .error (.panic "Was not able to find component name") := by
  obtain ⟨spec, h1, _, _⟩ := lines_read hR ht.plain t.lines [] ⟨[] ++ t.names, [], []⟩ ht.lines fun k => ⟨rfl, rfl⟩
  have hn' : c.toList ∉ "system".toList :: t.names.map String.toList := by
    intro h
    rcases List.mem_cons.1 h with h | h
    · exact hs (String.toList_inj.1 h)
    · obtain ⟨m, hm, e⟩ := List.mem_map.1 h
      exact hn (String.toList_inj.1 e ▸ hm)
  unfold SystemReader.decode
  rw [split_text (t := { t with lines := t.lines ++ .io c k is :: more }) hR.newline ht.plain (fun l hl => declLine_chars ht.plain ((ht.before l hl).imp_right .inl)), List.foldlM_append,
    lines_before hR _ _ ht.before, ok_bind, List.foldlM_cons, line_system hR ht.named ht.plain, ok_bind, List.map_append,
    List.foldlM_append, h1, ok_bind, List.map_cons, List.foldlM_cons, line_unknown hR hc hn', error_bind, error_bind]
  intro l hl
  rcases List.mem_append.1 hl with hl | hl
  · exact declLine_chars ht.plain (ht.lines l hl)
  · rcases List.mem_cons.1 hl with rfl | hl
    · exact declLine_chars (names := [c]) (by simpa using hc) (.inr (.inr ⟨c, k, is, rfl, by simp, hi⟩))
    · exact hm l hl

/-- **C66 (JSON projects).** -/
theorem C66_json_partial {t : SystemText} (ht : t.Proper) :
    ∃ spec, jsonSystem.decode (t.text []) = .ok spec ∧ spec.components = t.names ∧
      ∀ k, (spec.inputs.lookup k = if declaredIo true t.lines k = [] then none else some (declaredIo true t.lines k)) ∧
        (spec.outputs.lookup k = if declaredIo false t.lines k = [] then none else some (declaredIo false t.lines k)) :=
  declared_read json_ends ht

/-- **C66 (XML projects).** Lines may end with a carriage return. -/
theorem C66_xml_partial {t : SystemText} (ht : t.Proper) {eol : List Char} (he : eol = [] ∨ eol = ['\r']) :
    ∃ spec, xmlSystem.decode (t.text eol) = .ok spec ∧ spec.components = t.names ∧
      ∀ k, (spec.inputs.lookup k = if declaredIo true t.lines k = [] then none else some (declaredIo true t.lines k)) ∧
        (spec.outputs.lookup k = if declaredIo false t.lines k = [] then none else some (declaredIo false t.lines k)) :=
  declared_read (xml_ends he) ht

/-- **C66 (components that are not named).** -/
theorem C66_unknown_partial {t : SystemText} (ht : t.Proper) {c : String} {k : Nat}
    {is : List IoItem} {more : List DeclLine} (hc : PlainName c) (hi : ∀ i ∈ is, PlainName i.name) (hm : ∀ l ∈ more, '\n' ∉ l.text)
    (hn : c ∉ t.names) (hs : c ≠ "system") :
    jsonSystem.decode (SystemText.text { t with lines := t.lines ++ .io c k is :: more } []) =
        .error (.panic "Was not able to find component name") ∧
      ∀ eol, eol = [] ∨ eol = ['\r'] → xmlSystem.decode (SystemText.text { t with lines := t.lines ++ .io c k is :: more } eol) =
        .error (.panic "Was not able to find component name") :=
  ⟨unknown_read json_ends ht hc hi hm hn hs, fun _ he => unknown_read (xml_ends he) ht hc hi hm hn hs⟩

/-- what the lines declare as inputs, if anything -/
def declaredInputs (lines : List DeclLine) (component : String) : Option (List String) :=
  if declaredIo true lines component = [] then none else some (declaredIo true lines component)

/-- **C66 (projects).** A JSON project opens with these declarations, and its components are the ones in its files, made to accept
the inputs declared for them. -/
theorem C66_project_partial {Z : Nat → Type} [∀ d, ZoneLib (Z d)] (files : String → Option RawComponent) {t : SystemText}
    (ht : t.Proper) : ∃ P, openProject files (t.text []) = .ok P ∧
      ∀ name c, (jsonLoader Z).view P name = .ok c ↔ InProject Z files (declaredInputs t.lines) name c := by
  obtain ⟨spec, h1, _, h3⟩ := C66_json_partial ht
  refine ⟨⟨files, [], spec⟩, ?_, fun name c => ?_⟩
  · unfold openProject
    rw [h1]
    rfl
  · rw [view_fresh rfl]
    have : spec.inputsOf = declaredInputs t.lines := by
      funext k
      exact (h3 k).1
    rw [this]

/-- **C66 (declared inputs are accepted).** A component of the project performs every input declared for it, whatever its state.
The conditions on the component in the file are those of C27. -/
theorem C66_accepts_partial {Z : Nat → Type} [∀ d, ZoneLib (Z d)] (hZ : ∀ d, ZoneLib.dim (Z d) = d + 1)
    (files : String → Option RawComponent) {t : SystemText} (ht : t.Proper) {name : String} {raw : RawComponent} {c0 : Component}
    (hf : files name = some raw) (hr : raw.read = .ok c0) (hc : c0.Ok (c0.decls.clocks.length + 1)) (hg : GoodNaming c0.decls.clocks)
    (hix : (c0.decls.clocks.map (·.2)).Nodup) (ha : c0.UpdatesAgree) (hstar : ∀ e ∈ c0.edges, e.action ≠ "*")
    {P : Project} (hP : openProject files (t.text []) = .ok P) {c : Component} (h : (jsonLoader Z).view P name = .ok c)
    {order : List (LocId × LocTree (Z c0.decls.clocks.length)) → List (LocId × LocTree (Z c0.decls.clocks.length))}
    (ho : ∀ l, (order l).Perm l) {id : Nat} {x : CompComp (Z c0.decls.clocks.length)} (hx : CompComp.compile order c id = .ok x)
    {l : LocTree (Z c0.decls.clocks.length)} (hl : (Sys.comp x).IsLoc l) {a : String} (hin : a ∈ declaredIo true t.lines name)
    (hna : a ≠ "*") {v : Val} (hv : Valid (c0.decls.clocks.length + 1) v) (hinv : v ∈ InvSet l) :
    a ∈ x.inputs ∧ ∃ l' v', (Sys.comp x).ts.Act l v a l' v' := by
  obtain ⟨P', h1, h2⟩ := C66_project_partial (Z := Z) files ht
  obtain rfl : P' = P := by
    rw [hP] at h1
    cases h1
    rfl
  obtain ⟨raw', c1, e1, e2, _, h3⟩ := (h2 name c).1 h
  rw [hf] at e1
  cases e1
  rw [hr] at e2
  cases e2
  have h4 : declaredInputs t.lines name = some (declaredIo true t.lines name) :=
    if_neg fun e => by rw [e] at hin; cases hin
  rw [h4] at h3
  have hn := hZ c0.decls.clocks.length
  exact C27_enabled_partial c0 c _ (hn ▸ hc) hg hix hn ha hstar h3 order ho id x hx l hl a hin hna v (hn ▸ hv) hinv

/-! ## What is not read as it is written -/

/-- **C66 fails for an indented line** (`C66_violated_indented`): it is read without an error and declares nothing. Five of the
sample projects in the repository are written this way. -/
theorem C66_violated_indented (R : SystemReader) (hR : R = jsonSystem ∨ R = xmlSystem) :
    R.decode "system A;\n\tIO A {a?}\n IO A {b!}".toList = .ok ⟨["A"], [], []⟩ ∧
    R.decode "system A;\nIO A {a?}\nIO A {b!}".toList = .ok ⟨["A"], [("A", ["a"])], [("A", ["b"])]⟩ := by
  rcases hR with rfl | rfl <;> exact ⟨by decide +kernel, by decide +kernel⟩

/-- **C66 fails for the line ends of Windows in JSON projects** (`C66_violated_line_ends`): the carriage return becomes part of
the name of the last component, which is then not found. -/
theorem C66_violated_line_ends :
    jsonSystem.decode "system A;\r\nIO A {a?}".toList = .error (.panic "Was not able to find component name") ∧
    xmlSystem.decode "system A;\r\nIO A {a?}".toList = .ok ⟨["A"], [("A", ["a"])], []⟩ :=
  ⟨by decide +kernel, by decide +kernel⟩

/-- **C66 fails without a blank after the comma** (`C66_violated_commas`): two components become one. -/
theorem C66_violated_commas (R : SystemReader) (hR : R = jsonSystem ∨ R = xmlSystem) :
    R.decode "system A,B;".toList = .ok ⟨["AB"], [], []⟩ := by
  rcases hR with rfl | rfl <;> decide +kernel

/-- **The readers panic** (`C66_violated_panics`) for a semicolon after the declarations, a word without `?` or `!`, a line with
nothing after `IO`, and text before the line that names the components. -/
theorem C66_violated_panics (R : SystemReader) (hR : R = jsonSystem ∨ R = xmlSystem) (text : String)
    (h : text ∈ ["system A;\nIO A {a?};", "system A;\nIO A {a}", "system A;\nIO", "clock x;\nsystem A;"]) :
    ∃ m, R.decode text.toList = .error (.panic m) := by
  simp only [List.mem_cons, List.not_mem_nil, or_false] at h
  rcases hR with rfl | rfl <;> rcases h with rfl | rfl | rfl | rfl <;> exact ⟨_, rfl⟩

/-! ## A concrete case -/

def exSystemText : SystemText :=
  ⟨[.comment " two components".toList, .empty], ["Machine", "Adm"],
    [.io "Machine" 0 [⟨"coin", true, 1⟩, ⟨"tea", false, 0⟩], .empty, .io "Adm" 1 [⟨"grant", true, 0⟩, ⟨"coin", false, 1⟩],
      .io "Machine" 0 [⟨"cof", false, 0⟩]]⟩

theorem exSystemText_proper : exSystemText.Proper where
  named := by decide
  plain := by unfold PlainName; decide +kernel
  before := by
    intro l hl
    simp only [exSystemText, List.mem_cons, List.not_mem_nil, or_false] at hl
    rcases hl with rfl | rfl
    · exact .inr ⟨_, rfl, by decide⟩
    · exact .inl rfl
  lines := by
    intro l hl
    simp only [exSystemText, List.mem_cons, List.not_mem_nil, or_false] at hl
    rcases hl with rfl | rfl | rfl | rfl
    · exact .inr (.inr ⟨_, _, _, rfl, by decide +kernel, by unfold PlainName; decide +kernel⟩)
    · exact .inl rfl
    · exact .inr (.inr ⟨_, _, _, rfl, by decide +kernel, by unfold PlainName; decide +kernel⟩)
    · exact .inr (.inr ⟨_, _, _, rfl, by decide +kernel, by unfold PlainName; decide +kernel⟩)

example : exSystemText.text [] =
    "// two components\n\nsystem Machine, Adm;\nIO Machine {coin?, tea!}\n\nIO Adm { grant?,coin! }\nIO Machine {cof!}".toList := by
  decide +kernel

example : ∃ spec, jsonSystem.decode (exSystemText.text []) = .ok spec ∧ spec.components = ["Machine", "Adm"] ∧
    spec.inputs.lookup "Adm" = some ["grant"] ∧ spec.outputs.lookup "Machine" = some ["tea", "cof"] := by
  obtain ⟨spec, h1, h2, h3⟩ := C66_json_partial exSystemText_proper
  exact ⟨spec, h1, h2, (h3 "Adm").1.trans (by decide +kernel), (h3 "Machine").2.trans (by decide +kernel)⟩

/-- a folder with the component of C27 -/
def exShyFiles : String → Option RawComponent := fun n => if n = "S" then exShy.write.toOption else none

def exShyText : SystemText := ⟨[], ["S"], [.io "S" 0 [⟨"a", true, 1⟩, ⟨"b", true, 1⟩, ⟨"c", false, 0⟩]]⟩

theorem exShyText_proper : exShyText.Proper where
  named := by decide
  plain := by unfold PlainName; decide +kernel
  before := fun _ h => nomatch h
  lines := by
    intro l hl
    simp only [exShyText, List.mem_cons, List.not_mem_nil, or_false] at hl
    subst hl
    exact .inr (.inr ⟨_, _, _, rfl, by decide +kernel, by unfold PlainName; decide +kernel⟩)

/-- The hypotheses of `C66_accepts_partial` hold. -/
example : exShyText.text [] = "system S;\nIO S {a?, b?, c!}".toList ∧
    (∃ raw, exShyFiles "S" = some raw ∧ raw.read = .ok exShy) ∧ exShy.Ok (exShy.decls.clocks.length + 1) ∧
    GoodNaming exShy.decls.clocks ∧ (exShy.decls.clocks.map (·.2)).Nodup ∧ (∀ e ∈ exShy.edges, e.action ≠ "*") ∧
    (∃ P, openProject exShyFiles (exShyText.text []) = .ok P ∧ (jsonLoader FedD).view P "S" = .ok exShyEnabled) ∧
    (∃ x : CompComp (FedD 1), CompComp.compile id exShyEnabled 0 = .ok x ∧ x.locations.length = 2) ∧
    "b" ∈ declaredIo true exShyText.lines "S" := by
  have hr : ∃ raw, exShyFiles "S" = some raw ∧ raw.read = .ok exShy := ⟨_, rfl, by decide +kernel⟩
  refine ⟨by decide +kernel, hr, Component.ok_of_okB (by decide), ⟨by decide, by decide⟩, by decide,
    by decide, ?_, ⟨getOk (CompComp.compile id exShyEnabled 0) (by decide +kernel), getOk_eq _, by decide +kernel⟩, by decide +kernel⟩
  obtain ⟨P, h1, h2⟩ := C66_project_partial (Z := FedD) exShyFiles exShyText_proper
  obtain ⟨raw, hf, hr⟩ := hr
  have h3 : declaredInputs exShyText.lines "S" = some ["a", "b"] := by decide +kernel
  refine ⟨P, h1, (h2 _ _).2 ⟨raw, exShy, hf, hr, rfl, ?_⟩⟩
  rw [h3]
  exact exShy_enabled

end Reveaal
