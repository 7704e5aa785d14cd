import Verif.Spec.Print
import Verif.Lemmas.Compile

/-!
# Texts that can be read back
-/

namespace Reveaal
open Text

/-! ## Lists of characters -/

/-- The text is empty or its first character is not one of those of `P`. -/
def Stops (P : Char → Bool) (r : Chars) : Prop := ∀ c ∈ r.head?, P c = false

theorem Stops.cons {P : Char → Bool} {c : Char} {r : Chars} (h : P c = false) : Stops P (c :: r) := by
  intro d hd
  cases hd
  exact h

theorem split_stop {P : Char → Bool} : ∀ {a a' r r' : Chars}, (∀ c ∈ a, P c = true) → (∀ c ∈ a', P c = true) → Stops P r →
    Stops P r' → a ++ r = a' ++ r' → a = a' ∧ r = r'
  | [], [], _, _, _, _, _, _, h => ⟨rfl, h⟩
  | [], c :: a', r, r', _, h', hr, _, h => by
    subst h
    exact absurd (h' c (List.mem_cons_self ..)) (by rw [hr c rfl]; simp)
  | c :: a, [], r, r', h', _, _, hr, h => by
    have h : c :: (a ++ r) = r' := h
    subst h
    exact absurd (h' c (List.mem_cons_self ..)) (by rw [hr c rfl]; simp)
  | c :: a, d :: a', r, r', h1, h2, h3, h4, h => by
    injection h with h h'
    obtain ⟨rfl, rfl⟩ := split_stop (fun x hx => h1 x (List.mem_cons_of_mem _ hx)) (fun x hx => h2 x (List.mem_cons_of_mem _ hx))
      h3 h4 h'
    exact ⟨by rw [h], rfl⟩

theorem until_char {c : Char} {a a' r r' : Chars} (h : c ∉ a) (h' : c ∉ a') (e : a ++ c :: r = a' ++ c :: r') :
    a = a' ∧ r = r' := by
  obtain ⟨h1, h2⟩ := split_stop (P := fun x => x != c) (fun x hx => by simpa using fun hh : x = c => h (hh ▸ hx))
    (fun x hx => by simpa using fun hh : x = c => h' (hh ▸ hx)) (Stops.cons (by simp)) (Stops.cons (by simp)) e
  injection h2 with _ h2
  exact ⟨h1, h2⟩

/-- Two texts that differ somewhere are the beginnings of different texts. -/
theorem clash (n : Nat) {u v x y : Chars} (hu : n ≤ u.length) (hv : n ≤ v.length) (hne : u.take n ≠ v.take n) :
    u ++ x ≠ v ++ y := by
  intro h
  refine hne ?_
  rw [← List.take_append_of_le_length (l₂ := x) hu, ← List.take_append_of_le_length (l₂ := y) hv, h]

theorem toList_inj {a b : String} (h : a.toList = b.toList) : a = b := by
  rw [← String.ofList_toList (s := a), h, String.ofList_toList]

/-! ## Locations and states -/

/-- The characters of the names of locations: not those around them -/
def locChar (c : Char) : Bool := !['(', ')', '|', '&', '\\', '<'].contains c

theorem word_ne {c d : Char} (h : isWord c = true) (hd : isWord d = false) : c ≠ d := by
  rintro rfl
  rw [h] at hd
  cases hd

theorem word_locChar {c : Char} (h : isWord c = true) : locChar c = true := by
  have h1 := word_ne h (d := '(') (by decide)
  have h2 := word_ne h (d := ')') (by decide)
  have h3 := word_ne h (d := '|') (by decide)
  have h4 := word_ne h (d := '&') (by decide)
  have h5 := word_ne h (d := '\\') (by decide)
  have h6 := word_ne h (d := '<') (by decide)
  simp [locChar, h1, h2, h3, h4, h5, h6]

theorem SpecialLoc.text_locChar (k : SpecialLoc) : ∀ c ∈ k.text, locChar c = true := by
  cases k <;> decide +kernel

theorem IsWordText.without {s : String} (h : IsWordText s) {d : Char} (hd : isWord d = false) : d ∉ s.toList := by
  intro hm
  rw [h d hm] at hd
  cases hd

theorem leaf_locChar {n l : String} (hn : IsWordText n) (hl : IsWordText l) : ∀ c ∈ n.toList ++ '.' :: l.toList,
    locChar c = true := by
  intro c hc
  rcases List.mem_append.1 hc with hc | hc
  · exact word_locChar (hn c hc)
  · rcases List.mem_cons.1 hc with rfl | hc
    · decide
    · exact word_locChar (hl c hc)

theorem leaf_not_special {n l : String} (hn : IsWordText n) (k : SpecialLoc) : n.toList ++ '.' :: l.toList ≠ k.text := by
  intro h
  have : (n.toList ++ '.' :: l.toList).head? = some '[' := by rw [h]; cases k <;> decide +kernel
  cases hc : n.toList with
  | nil => rw [hc] at this; exact absurd this (by simp)
  | cons c cs =>
    rw [hc] at this
    have hc' : c = '[' := by simpa using this
    exact word_ne (hn c (by rw [hc]; exact List.mem_cons_self ..)) (by decide) hc'

theorem operator_inj {o o' : SysType} {a a' x y : Chars} (h : o.operator = .ok a) (h' : o'.operator = .ok a')
    (e : a ++ x = a' ++ y) : o = o' ∧ x = y := by
  cases o <;> cases h <;> cases o' <;> cases h' <;> first | exact ⟨rfl, by simpa using e⟩ | (exfalso; simp at e)

theorem operator_stops {o : SysType} {a x : Chars} (h : o.operator = .ok a) : Stops locChar (a ++ x) := by
  cases o <;> cases h <;> exact Stops.cons (by decide)

/-- A location can be told from its text. -/
theorem SpecificLoc.text_inj : ∀ {l l' : SpecificLoc} {a a' r r' : Chars}, l.Readable → l'.Readable → l.text = .ok a →
    l'.text = .ok a' → Stops locChar r → Stops locChar r' → a ++ r = a' ++ r' → l.Same l' ∧ r = r' := by
  intro l
  have leafish : ∀ {l : SpecificLoc} {a : Chars}, l.Readable → l.text = .ok a → (∀ x y o, l ≠ .branch x y o) →
      ∀ c ∈ a, locChar c = true := by
    intro l a hl ha hb
    cases l with
    | component c n => cases ha; exact leaf_locChar (hl _ (List.mem_singleton.2 rfl)).1 (hl _ (List.mem_singleton.2 rfl)).2
    | special k => cases ha; exact k.text_locChar
    | branch x y o => exact absurd rfl (hb x y o)
  have notBranch : ∀ {l : SpecificLoc} {a r s : Chars}, l.Readable → l.text = .ok a → (∀ x y o, l ≠ .branch x y o) →
      Stops locChar r → a ++ r ≠ '(' :: s := by
    intro l a r s hl ha hb hr he
    obtain ⟨h1, h2⟩ := split_stop (a' := []) (leafish hl ha hb) (by simp) hr (Stops.cons (by decide)) he
    subst h1
    cases l with
    | component c n => cases hc : c.name.toList <;> simp [SpecificLoc.text, hc] at ha
    | special k => cases k <;> exact absurd (Except.ok.inj ha) (by decide +kernel)
    | branch x y o => exact absurd rfl (hb x y o)
  induction l with
  | component c n =>
    intro l' a a' r r' h h' ha ha' hr hr' e
    cases l' with
    | component c' n' =>
      obtain ⟨e1, e2⟩ := split_stop (leafish h ha (by simp)) (leafish h' ha' (by simp)) hr hr' e
      cases ha; cases ha'
      have w := h _ (List.mem_singleton.2 rfl)
      have w' := h' _ (List.mem_singleton.2 rfl)
      obtain ⟨e3, e4⟩ := until_char (w.1.without (by decide)) (w'.1.without (by decide)) e1
      exact ⟨⟨toList_inj e3, toList_inj e4⟩, e2⟩
    | special k =>
      obtain ⟨e1, e2⟩ := split_stop (leafish h ha (by simp)) (leafish h' ha' (by simp)) hr hr' e
      cases ha; cases ha'
      exact absurd e1 (leaf_not_special (h _ (List.mem_singleton.2 rfl)).1 k)
    | branch x y o =>
      obtain ⟨a1, _, ha'⟩ := bind_ok ha'
      obtain ⟨a2, _, ha'⟩ := bind_ok ha'
      obtain ⟨a3, _, ha'⟩ := bind_ok ha'
      cases ha'
      exact absurd e (notBranch h ha (by simp) hr)
  | special k =>
    intro l' a a' r r' h h' ha ha' hr hr' e
    cases l' with
    | component c' n' =>
      obtain ⟨e1, e2⟩ := split_stop (leafish h ha (by simp)) (leafish h' ha' (by simp)) hr hr' e
      cases ha; cases ha'
      exact absurd e1.symm (leaf_not_special (h' _ (List.mem_singleton.2 rfl)).1 k)
    | special k' =>
      obtain ⟨e1, e2⟩ := split_stop (leafish h ha (by simp)) (leafish h' ha' (by simp)) hr hr' e
      cases ha; cases ha'
      refine ⟨?_, e2⟩
      show k = k'
      cases k <;> cases k' <;> first | rfl | (exact absurd e1 (by decide +kernel))
    | branch x y o =>
      obtain ⟨a1, _, ha'⟩ := bind_ok ha'
      obtain ⟨a2, _, ha'⟩ := bind_ok ha'
      obtain ⟨a3, _, ha'⟩ := bind_ok ha'
      cases ha'
      exact absurd e (notBranch h ha (by simp) hr)
  | branch x y o ihx ihy =>
    intro l' a a' r r' h h' ha ha' hr hr' e
    obtain ⟨a1, h1, ha⟩ := bind_ok ha
    obtain ⟨a2, h2, ha⟩ := bind_ok ha
    obtain ⟨a3, h3, ha⟩ := bind_ok ha
    cases ha
    cases l' with
    | component c' n' => exact absurd e.symm (notBranch h' ha' (by simp) hr')
    | special k' => exact absurd e.symm (notBranch h' ha' (by simp) hr')
    | branch x' y' o' =>
      obtain ⟨b1, k1, ha'⟩ := bind_ok ha'
      obtain ⟨b2, k2, ha'⟩ := bind_ok ha'
      obtain ⟨b3, k3, ha'⟩ := bind_ok ha'
      cases ha'
      simp only [List.cons_append, List.append_assoc, List.nil_append] at e
      injection e with _ e
      obtain ⟨s1, e⟩ := ihx (fun p hp => h p (List.mem_append_left _ hp)) (fun p hp => h' p (List.mem_append_left _ hp)) h1 k1
        (operator_stops h2) (operator_stops k2) e
      obtain ⟨hop, e⟩ := operator_inj h2 k2 e
      subst hop
      obtain ⟨s2, e⟩ := ihy (fun p hp => h p (List.mem_append_right _ hp)) (fun p hp => h' p (List.mem_append_right _ hp)) h3 k3
        (Stops.cons (by decide)) (Stops.cons (by decide)) e
      injection e with _ e
      exact ⟨⟨s1, s2, rfl⟩, e⟩

theorem SpecificState.text_inj {x x' : SpecificState} {a a' r r' : Chars} (h : x.locations.Readable)
    (h' : x'.locations.Readable) (ha : x.text = .ok a) (ha' : x'.text = .ok a') (e : a ++ r = a' ++ r') :
    x.locations.Same x'.locations ∧ r = r' := by
  obtain ⟨b, hb, ha⟩ := bind_ok ha
  obtain ⟨b', hb', ha'⟩ := bind_ok ha'
  cases ha; cases ha'
  simp only [List.cons_append, List.append_assoc, List.nil_append] at e
  injection e with _ e
  obtain ⟨s, e⟩ := SpecificLoc.text_inj h h' hb hb' (Stops.cons (by decide)) (Stops.cons (by decide)) e
  injection e with _ e
  exact ⟨s, e⟩

/-! ## Actions -/

theorem actionText_inj {b b' : Bool} {n n' : String} {r r' : Chars} (h : IsWordText n) (h' : IsWordText n')
    (e : actionText b n ++ r = actionText b' n' ++ r') : b = b' ∧ n = n' ∧ r = r' := by
  have hb : b = b' := by
    unfold actionText at e
    simp only [List.append_assoc] at e
    cases b <;> cases b' <;> first | rfl | (exact absurd e (clash 3 (by decide +kernel) (by decide +kernel) (by decide +kernel)))
  subst hb
  unfold actionText at e
  simp only [List.append_assoc, List.append_cancel_left_eq, List.cons_append, List.nil_append] at e
  obtain ⟨e1, e2⟩ := until_char (h.without (by decide)) (h'.without (by decide)) e
  exact ⟨rfl, toList_inj e1, e2⟩

theorem debugText_word {esc : Char → Chars} (hesc : ∀ c, isWord c = true → esc c = [c]) {s : String} (h : IsWordText s) :
    debugText esc s = '"' :: (s.toList ++ ['"']) := by
  have : s.toList.flatMap esc = s.toList := by
    have : ∀ l : Chars, (∀ c ∈ l, isWord c = true) → l.flatMap esc = l := by
      intro l
      induction l with
      | nil => intro _; rfl
      | cons c l ih =>
        intro hl
        rw [List.flatMap_cons, hesc c (hl c (List.mem_cons_self ..)), ih fun d hd => hl d (List.mem_cons_of_mem _ hd)]
        rfl
    exact this _ h
  unfold debugText
  rw [this]

theorem debugItems_inj {esc : Char → Chars} (hesc : ∀ c, isWord c = true → esc c = [c]) : ∀ {l l' : List String} {r r' : Chars},
    (∀ a ∈ l, IsWordText a) → (∀ a ∈ l', IsWordText a) → debugItems esc l ++ '}' :: r = debugItems esc l' ++ '}' :: r' →
    l = l' ∧ r = r' := by
  have tail : ∀ (a : String) (l : List String), debugItems esc (a :: l) =
      debugText esc a ++ (if l = [] then [] else ',' :: ' ' :: debugItems esc l) := by
    intro a l
    cases l <;> simp [debugItems]
  intro l
  induction l with
  | nil =>
    intro l' r r' _ h' e
    cases l' with
    | nil => injection e with _ e; exact ⟨rfl, e⟩
    | cons b l' =>
      rw [tail, debugText_word hesc (h' b (List.mem_cons_self ..))] at e
      simp [debugItems] at e
  | cons a l ih =>
    intro l' r r' h h' e
    cases l' with
    | nil =>
      rw [tail, debugText_word hesc (h a (List.mem_cons_self ..))] at e
      simp [debugItems] at e
    | cons b l' =>
      rw [tail, tail, debugText_word hesc (h a (List.mem_cons_self ..)), debugText_word hesc (h' b (List.mem_cons_self ..))] at e
      simp only [List.cons_append, List.append_assoc, List.nil_append] at e
      injection e with _ e
      obtain ⟨e1, e2⟩ := until_char ((h a (List.mem_cons_self ..)).without (by decide))
        ((h' b (List.mem_cons_self ..)).without (by decide)) e
      have e1 := toList_inj e1
      subst e1
      cases l with
      | nil =>
        cases l' with
        | nil => simp at e2; exact ⟨rfl, e2⟩
        | cons b' l' => simp at e2
      | cons a' l =>
        cases l' with
        | nil => simp at e2
        | cons b' l' =>
          simp only [reduceCtorEq, if_false, List.cons_append] at e2
          injection e2 with _ e2
          injection e2 with _ e2
          obtain ⟨e3, e4⟩ := ih (fun x hx => h x (List.mem_cons_of_mem _ hx)) (fun x hx => h' x (List.mem_cons_of_mem _ hx)) e2
          exact ⟨by rw [e3], e4⟩

theorem quote_split {s s' : String} {x y : Chars} (h : Quotable s) (h' : Quotable s') (hx : x.head? = some '\'')
    (hy : y.head? = some '\'') (e : s.toList ++ x = s'.toList ++ y) : s = s' ∧ x = y := by
  cases x with
  | nil => cases hx
  | cons c x =>
    cases y with
    | nil => cases hy
    | cons d y =>
      cases hx; cases hy
      obtain ⟨e1, e2⟩ := until_char h h' e
      exact ⟨toList_inj e1, by rw [e2]⟩

theorem ActionSet.text_inj {esc : Char → Chars} (hesc : ∀ c, isWord c = true → esc c = [c])
    {ord ord' : List String → List String} (ho : ∀ l, (ord l).Perm l) (ho' : ∀ l, (ord' l).Perm l) {x x' : ActionSet}
    {r r' : Chars} (h : x.Readable) (h' : x'.Readable) (e : x.text esc ord ++ r = x'.text esc ord' ++ r') :
    x.Same x' ∧ r = r' := by
  unfold ActionSet.text at e
  have hb : x.isInput = x'.isInput := by
    simp only [List.append_assoc] at e
    cases hb : x.isInput <;> cases hb' : x'.isInput <;> rw [hb, hb'] at e <;>
      first | rfl | (exact absurd e (clash 3 (by decide +kernel) (by decide +kernel) (by decide +kernel)))
  rw [hb] at e
  simp only [List.append_assoc, List.append_cancel_left_eq] at e
  have hlit : "} in system '".toList = '}' :: " in system '".toList := by decide +kernel
  rw [hlit] at e
  simp only [List.cons_append] at e
  obtain ⟨e1, e2⟩ := debugItems_inj hesc (fun a ha => h.2 a ((ho _).mem_iff.1 ha)) (fun a ha => h'.2 a ((ho' _).mem_iff.1 ha)) e
  rw [List.append_cancel_left_eq] at e2
  obtain ⟨e3, e4⟩ := quote_split h.1 h'.1 rfl rfl e2
  injection e4 with _ e4
  refine ⟨⟨e3, hb, fun a => ?_⟩, e4⟩
  rw [← (ho x.actions).mem_iff, e1, (ho' x'.actions).mem_iff]

/-! ## Failures -/

theorem DetReport.text_inj {x x' : DetReport} {a a' r r' : Chars} (h : x.Readable) (h' : x'.Readable) (ha : x.text = .ok a)
    (ha' : x'.text = .ok a') (e : a ++ r = a' ++ r') : x.Same x' ∧ r = r' := by
  obtain ⟨b, hb, ha⟩ := bind_ok ha
  obtain ⟨b', hb', ha'⟩ := bind_ok ha'
  cases ha; cases ha'
  simp only [List.append_assoc, List.append_cancel_left_eq] at e
  obtain ⟨e1, e⟩ := quote_split h.1 h'.1 rfl rfl e
  rw [List.append_cancel_left_eq] at e
  obtain ⟨e2, e⟩ := SpecificState.text_inj h.2.2 h'.2.2 hb hb' e
  rw [List.append_cancel_left_eq] at e
  obtain ⟨e3, e4, e⟩ := actionText_inj h.2.1 h'.2.1 e
  exact ⟨⟨e1, e4, e3, e2⟩, e⟩

theorem ConsReport.text_form {x : ConsReport} {a : Chars} (h : x.Readable) (ha : x.text = .ok a) :
    ∃ s t, Quotable s ∧ a = "The system '".toList ++ (s.toList ++ t) ∧
    ((x = .noInitialState s ∧ t = "' is inconsistent because it has no initial state".toList) ∨
     (∃ f, x = .notDeterministic f ∧ ∃ u, t = "' is not deterministic in state ".toList ++ u) ∨
     ∃ st b, x.Stuck s st ∧ st.locations.Readable ∧ st.text = .ok b ∧
      t = "' is inconsistent because there are no saving outputs from state ".toList ++ b) := by
  cases x with
  | noInitialState s => cases ha; exact ⟨s, _, h, rfl, .inl ⟨rfl, rfl⟩⟩
  | notDeterministic f =>
    obtain ⟨b, hb, ha⟩ := bind_ok ha
    cases ha
    exact ⟨_, _, h.1, rfl, .inr (.inl ⟨f, rfl, _, rfl⟩)⟩
  | inconsistentLoc s st =>
    obtain ⟨b, hb, ha⟩ := bind_ok ha
    cases ha
    exact ⟨_, _, h.1, rfl, .inr (.inr ⟨st, b, .inl rfl, h.2, hb, rfl⟩)⟩
  | inconsistentFrom s st =>
    obtain ⟨b, hb, ha⟩ := bind_ok ha
    cases ha
    exact ⟨_, _, h.1, rfl, .inr (.inr ⟨st, b, .inr rfl, h.2, hb, rfl⟩)⟩

theorem ConsReport.text_inj {x x' : ConsReport} {a a' r r' : Chars} (h : x.Readable) (h' : x'.Readable) (ha : x.text = .ok a)
    (ha' : x'.text = .ok a') (e : a ++ r = a' ++ r') : x.Same x' ∧ r = r' := by
  obtain ⟨s, t, hs, e1, c⟩ := x.text_form h ha
  obtain ⟨s', t', hs', e1', c'⟩ := x'.text_form h' ha'
  have e0 := e
  rw [e1, e1'] at e
  simp only [List.append_assoc, List.append_cancel_left_eq] at e
  have hq : (t ++ r).head? = some '\'' := by
    rcases c with ⟨_, rfl⟩ | ⟨_, _, _, rfl⟩ | ⟨_, _, _, _, _, rfl⟩ <;> rfl
  have hq' : (t' ++ r').head? = some '\'' := by
    rcases c' with ⟨_, rfl⟩ | ⟨_, _, _, rfl⟩ | ⟨_, _, _, _, _, rfl⟩ <;> rfl
  replace e := quote_split hs hs' hq hq' e
  obtain ⟨hss, e⟩ := e
  subst hss
  rcases c with ⟨rfl, rfl⟩ | ⟨f, rfl, u, rfl⟩ | ⟨st, b, k1, k2, k3, rfl⟩ <;>
    rcases c' with ⟨rfl, rfl⟩ | ⟨f', rfl, u', rfl⟩ | ⟨st', b', k1', k2', k3', rfl⟩
  · rw [List.append_cancel_left_eq] at e
    exact ⟨.noInitialState, e⟩
  · rw [List.append_assoc] at e
    exact absurd e (clash 12 (by decide +kernel) (by decide +kernel) (by decide +kernel))
  · rw [List.append_assoc] at e
    exact absurd e (clash 30 (by decide +kernel) (by decide +kernel) (by decide +kernel))
  · rw [List.append_assoc] at e
    exact absurd e (clash 12 (by decide +kernel) (by decide +kernel) (by decide +kernel))
  · obtain ⟨e2, e3⟩ := DetReport.text_inj h h' ha ha' e0
    exact ⟨.notDeterministic e2, e3⟩
  · simp only [List.append_assoc] at e
    exact absurd e (clash 12 (by decide +kernel) (by decide +kernel) (by decide +kernel))
  · rw [List.append_assoc] at e
    exact absurd e (clash 30 (by decide +kernel) (by decide +kernel) (by decide +kernel))
  · simp only [List.append_assoc] at e
    exact absurd e (clash 12 (by decide +kernel) (by decide +kernel) (by decide +kernel))
  · simp only [List.append_assoc, List.append_cancel_left_eq] at e
    obtain ⟨e2, e3⟩ := SpecificState.text_inj k2 k2' k3 k3' e
    exact ⟨.stuck k1 k1' e2, e3⟩

/-- The cause of a failed refinement, as it is told after the name of the refinement -/
inductive CauseText (esc : Char → Chars) (ord : List String → List String) (s : String) : RefinementReport → Chars → Prop
  | cuts {f : RefReport} {st : Chars} : f.cuts = true → f.state.text = .ok st → CauseText esc ord s (.state s f)
      ("' fails because delay solutions are cut in state ".toList ++ (st ++ (" for ".toList ++ actionText f.isInput f.action)))
  | match_ {f : RefReport} {st : Chars} : f.cuts = false → f.state.text = .ok st → CauseText esc ord s (.state s f)
      ("' fails in state ".toList ++ (st ++ (" because ".toList ++ (actionText f.isInput f.action ++
        " cannot be matched".toList))))
  | emptyChild {c : String} : CauseText esc ord s (.emptyChild c s)
      ("' fails because '".toList ++ (c.toList ++ "' is empty".toList))
  | emptyInitial : CauseText esc ord s (.emptyInitial s) "' fails because it has no initial state".toList
  | inconsistentChild {f : ConsReport} {t : Chars} : f.text = .ok t → CauseText esc ord s (.inconsistentChild f s)
      ("' fails because of inconsistent system: ".toList ++ t)
  | actionMismatch {f : ActionFailure} : CauseText esc ord s (.actionMismatch f s)
      ("' fails based on actions: ".toList ++ f.text esc ord)

theorem RefinementReport.text_form {esc : Char → Chars} {ord : List String → List String} {x : RefinementReport} {a : Chars}
    (h : x.Readable) (ha : x.text esc ord = .ok a) :
    ∃ s t, Quotable s ∧ a = "The refinement '".toList ++ (s.toList ++ t) ∧ CauseText esc ord s x t := by
  cases x with
  | state s f =>
    obtain ⟨b, hb, ha⟩ := bind_ok ha
    cases ha
    refine ⟨s, _, h.1, rfl, ?_⟩
    cases hc : f.cuts with
    | true => rw [if_pos rfl]; exact .cuts hc hb
    | false => rw [if_neg (by simp)]; exact .match_ hc hb
  | emptyChild c s => cases ha; exact ⟨s, _, h.2, rfl, .emptyChild⟩
  | emptyInitial s => cases ha; exact ⟨s, _, h, rfl, .emptyInitial⟩
  | inconsistentChild f s =>
    obtain ⟨b, hb, ha⟩ := bind_ok ha
    cases ha
    exact ⟨s, _, h.2, rfl, .inconsistentChild hb⟩
  | actionMismatch f s => cases ha; exact ⟨s, _, h.2.2, rfl, .actionMismatch⟩

/-- The reason for the failure of a refinement can be told from its text. -/
theorem RefinementReport.text_inj {esc : Char → Chars} (hesc : ∀ c, isWord c = true → esc c = [c])
    {ord ord' : List String → List String} (ho : ∀ l, (ord l).Perm l) (ho' : ∀ l, (ord' l).Perm l) {x x' : RefinementReport}
    {a a' r r' : Chars} (h : x.Readable) (h' : x'.Readable) (ha : x.text esc ord = .ok a) (ha' : x'.text esc ord' = .ok a')
    (e : a ++ r = a' ++ r') : x.Same x' ∧ r = r' := by
  obtain ⟨s, t, hs, rfl, c⟩ := x.text_form h ha
  obtain ⟨s', t', hs', rfl, c'⟩ := x'.text_form h' ha'
  simp only [List.append_assoc, List.append_cancel_left_eq] at e
  have hq : (t ++ r).head? = some '\'' := by cases c <;> rfl
  have hq' : (t' ++ r').head? = some '\'' := by cases c' <;> rfl
  replace e := quote_split hs hs' hq hq' e
  obtain ⟨hss, e⟩ := e
  subst hss
  cases c <;> cases c' <;> (try simp only [List.append_assoc] at e)
  all_goals first
    | exact absurd e (clash 23 (by decide +kernel) (by decide +kernel) (by decide +kernel))
    | exact absurd e (clash 17 (by decide +kernel) (by decide +kernel) (by decide +kernel))
    | rw [List.append_cancel_left_eq] at e
  · rename_i f st k1 k2 f' st' k1' k2'
    obtain ⟨e1, e⟩ := SpecificState.text_inj h.2.2 h'.2.2 k2 k2' e
    rw [List.append_cancel_left_eq] at e
    obtain ⟨e2, e3, e⟩ := actionText_inj h.2.1 h'.2.1 e
    exact ⟨.state (k1.trans k1'.symm) e3 e2 e1, e⟩
  · rename_i f st k1 k2 f' st' k1' k2'
    obtain ⟨e1, e⟩ := SpecificState.text_inj h.2.2 h'.2.2 k2 k2' e
    rw [List.append_cancel_left_eq] at e
    obtain ⟨e2, e3, e⟩ := actionText_inj h.2.1 h'.2.1 e
    rw [List.append_cancel_left_eq] at e
    exact ⟨.state (k1.trans k1'.symm) e3 e2 e1, e⟩
  · replace e := quote_split h.1 h'.1 rfl rfl e
    obtain ⟨hss, e⟩ := e
    subst hss
    rw [List.append_cancel_left_eq] at e
    exact ⟨.emptyChild, e⟩
  · exact ⟨.emptyInitial, e⟩
  · rename_i f t k f' t' k'
    obtain ⟨e1, e⟩ := ConsReport.text_inj h.1 h'.1 k k' e
    exact ⟨.inconsistentChild e1, e⟩
  · rename_i f f'
    unfold ActionFailure.text at e
    simp only [List.append_assoc] at e
    obtain ⟨e1, e⟩ := ActionSet.text_inj hesc ho ho' h.1 h'.1 e
    have hb : f.subset = f'.subset := by
      cases hb : f.subset <;> cases hb' : f'.subset <;> rw [hb, hb'] at e <;>
        first | rfl | (exact absurd e (clash 12 (by decide +kernel) (by decide +kernel) (by decide +kernel)))
    rw [hb, List.append_cancel_left_eq] at e
    obtain ⟨e2, e⟩ := ActionSet.text_inj hesc ho ho' h.2.1 h'.2.1 e
    exact ⟨.actionMismatch hb e1 e2, e⟩

end Reveaal
