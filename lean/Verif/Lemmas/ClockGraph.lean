import Verif.Spec.Clocks
import Verif.Lemmas.Product
import Verif.Lemmas.Compile

/-! # The graph of the clock analysis covers everything that can be reached -/

namespace Reveaal
open ZoneLib

/-! ## Identifier strings -/

/-- An identifier without wildcards, with clean names. -/
def LocId.Clean : LocId → Prop
  | .conjunction a b | .composition a b | .quotient a b => a.Clean ∧ b.Clean
  | .simple n => CleanName n
  | .special _ => True
  | .any => False

/-- The characters of `uniqueString`. -/
def LocId.chars : LocId → List Char
  | .composition a b => '(' :: (a.chars ++ '|' :: '|' :: (b.chars ++ [')']))
  | .conjunction a b => '(' :: (a.chars ++ '&' :: '&' :: (b.chars ++ [')']))
  | .quotient a b => '(' :: (a.chars ++ '\\' :: (b.chars ++ [')']))
  | .any => ['_']
  | .simple n => n.toList
  | .special .universal => ['[', 'U', 'n', 'i', 'v', 'e', 'r', 's', 'a', 'l', ']']
  | .special .error => ['[', 'E', 'r', 'r', 'o', 'r', ']']

theorem LocId.toList_uniqueString (i : LocId) : i.uniqueString.toList = i.chars := by
  induction i with
  | composition a b iha ihb => rw [uniqueString, chars]; simp [String.toList_append, iha, ihb]
  | conjunction a b iha ihb => rw [uniqueString, chars]; simp [String.toList_append, iha, ihb]
  | quotient a b iha ihb => rw [uniqueString, chars]; simp [String.toList_append, iha, ihb]
  | any => rw [uniqueString, chars]; decide
  | simple n => rfl
  | special s => cases s <;> rw [uniqueString, chars, SpecialLoc.toStr] <;> decide

/-- What may follow an identifier: nothing, an operator or a closing bracket. -/
def Term (r : List Char) : Prop := ∀ c r', r = c :: r' → c ∈ [')', '|', '&', '\\']

/-- Reading a clean name stops at the first character that may follow. -/
theorem name_cut : ∀ {n m r r' : List Char}, (∀ c ∈ n, c ∉ ['(', ')', '|', '&', '\\', '[', ']']) →
    (∀ c ∈ m, c ∉ ['(', ')', '|', '&', '\\', '[', ']']) → Term r → Term r' → n ++ r = m ++ r' → n = m ∧ r = r'
  | [], [], _, _, _, _, _, _, h => ⟨rfl, h⟩
  | [], d :: m, r, r', _, hm, hr, _, h => by
    have := hr d (m ++ r') h
    exact absurd (by simp only [List.mem_cons, List.not_mem_nil, or_false] at this ⊢; tauto) (hm d (by simp))
  | c :: n, [], r, r', hn, _, _, hr', h => by
    have := hr' c (n ++ r) h.symm
    exact absurd (by simp only [List.mem_cons, List.not_mem_nil, or_false] at this ⊢; tauto) (hn c (by simp))
  | c :: n, d :: m, r, r', hn, hm, hr, hr', h => by
    rw [List.cons_append, List.cons_append, List.cons.injEq] at h
    obtain ⟨h1, h2⟩ := name_cut (fun x hx => hn x (by simp [hx])) (fun x hx => hm x (by simp [hx])) hr hr' h.2
    exact ⟨by rw [h.1, h1], h2⟩

theorem name_bracket {n r : List Char} {c : Char} {r' : List Char}
    (hn : ∀ c ∈ n, c ∉ ['(', ')', '|', '&', '\\', '[', ']']) (hr : Term r) (hc : c ∈ ['(', '[']) :
    n ++ r ≠ c :: r' := by
  intro h
  cases n with
  | nil =>
    have := hr c r' h
    simp only [List.mem_cons, List.not_mem_nil, or_false] at this hc
    rcases hc with rfl | rfl <;> revert this <;> decide
  | cons d n =>
    rw [List.cons_append, List.cons.injEq] at h
    refine hn d (by simp) ?_
    rw [h.1]
    simp only [List.mem_cons, List.not_mem_nil, or_false] at hc ⊢
    tauto

theorem term_cons {c : Char} {r : List Char} (h : c ∈ [')', '|', '&', '\\']) : Term (c :: r) := by
  intro c' r' e
  rw [List.cons.injEq] at e
  rw [← e.1]; exact h

/-- Identifiers with clean names can be read back from their strings. -/
theorem LocId.chars_cut : ∀ (i : LocId) {j : LocId} {r r' : List Char}, i.Clean → j.Clean → Term r → Term r' →
    i.chars ++ r = j.chars ++ r' → i = j ∧ r = r' := by
  have special : ∀ {s s' : SpecialLoc} {r r' : List Char},
      (LocId.special s).chars ++ r = (LocId.special s').chars ++ r' → s = s' ∧ r = r' := by
    intro s s' r r' h
    cases s <;> cases s' <;> simp only [LocId.chars, List.cons_append, List.nil_append, List.cons.injEq] at h <;>
      simp at h ⊢ <;> exact h
  intro i
  induction i with
  | composition a b iha ihb =>
    intro j r r' hi hj hr hr' h
    cases j with
    | composition a' b' =>
      simp only [chars, List.cons_append, List.append_assoc, List.cons.injEq, true_and, List.nil_append] at h
      obtain ⟨e1, h1⟩ := iha hi.1 hj.1 (term_cons (by decide)) (term_cons (by decide)) h
      simp only [List.cons.injEq, true_and] at h1
      obtain ⟨e2, h2⟩ := ihb hi.2 hj.2 (term_cons (by decide)) (term_cons (by decide)) h1
      simp only [List.cons.injEq, true_and] at h2
      exact ⟨by rw [e1, e2], h2⟩
    | conjunction a' b' =>
      simp only [chars, List.cons_append, List.append_assoc, List.cons.injEq, true_and, List.nil_append] at h
      obtain ⟨_, h1⟩ := iha hi.1 hj.1 (term_cons (by decide)) (term_cons (by decide)) h
      simp at h1
    | quotient a' b' =>
      simp only [chars, List.cons_append, List.append_assoc, List.cons.injEq, true_and, List.nil_append] at h
      obtain ⟨_, h1⟩ := iha hi.1 hj.1 (term_cons (by decide)) (term_cons (by decide)) h
      simp at h1
    | simple n => exact absurd h.symm (name_bracket hj hr' (by decide))
    | special s => cases s <;> simp [chars] at h
    | any => cases hj
  | conjunction a b iha ihb =>
    intro j r r' hi hj hr hr' h
    cases j with
    | conjunction a' b' =>
      simp only [chars, List.cons_append, List.append_assoc, List.cons.injEq, true_and, List.nil_append] at h
      obtain ⟨e1, h1⟩ := iha hi.1 hj.1 (term_cons (by decide)) (term_cons (by decide)) h
      simp only [List.cons.injEq, true_and] at h1
      obtain ⟨e2, h2⟩ := ihb hi.2 hj.2 (term_cons (by decide)) (term_cons (by decide)) h1
      simp only [List.cons.injEq, true_and] at h2
      exact ⟨by rw [e1, e2], h2⟩
    | composition a' b' =>
      simp only [chars, List.cons_append, List.append_assoc, List.cons.injEq, true_and, List.nil_append] at h
      obtain ⟨_, h1⟩ := iha hi.1 hj.1 (term_cons (by decide)) (term_cons (by decide)) h
      simp at h1
    | quotient a' b' =>
      simp only [chars, List.cons_append, List.append_assoc, List.cons.injEq, true_and, List.nil_append] at h
      obtain ⟨_, h1⟩ := iha hi.1 hj.1 (term_cons (by decide)) (term_cons (by decide)) h
      simp at h1
    | simple n => exact absurd h.symm (name_bracket hj hr' (by decide))
    | special s => cases s <;> simp [chars] at h
    | any => cases hj
  | quotient a b iha ihb =>
    intro j r r' hi hj hr hr' h
    cases j with
    | quotient a' b' =>
      simp only [chars, List.cons_append, List.append_assoc, List.cons.injEq, true_and, List.nil_append] at h
      obtain ⟨e1, h1⟩ := iha hi.1 hj.1 (term_cons (by decide)) (term_cons (by decide)) h
      simp only [List.cons.injEq, true_and] at h1
      obtain ⟨e2, h2⟩ := ihb hi.2 hj.2 (term_cons (by decide)) (term_cons (by decide)) h1
      simp only [List.cons.injEq, true_and] at h2
      exact ⟨by rw [e1, e2], h2⟩
    | composition a' b' =>
      simp only [chars, List.cons_append, List.append_assoc, List.cons.injEq, true_and, List.nil_append] at h
      obtain ⟨_, h1⟩ := iha hi.1 hj.1 (term_cons (by decide)) (term_cons (by decide)) h
      simp at h1
    | conjunction a' b' =>
      simp only [chars, List.cons_append, List.append_assoc, List.cons.injEq, true_and, List.nil_append] at h
      obtain ⟨_, h1⟩ := iha hi.1 hj.1 (term_cons (by decide)) (term_cons (by decide)) h
      simp at h1
    | simple n => exact absurd h.symm (name_bracket hj hr' (by decide))
    | special s => cases s <;> simp [chars] at h
    | any => cases hj
  | simple n =>
    intro j r r' hi hj hr hr' h
    cases j with
    | simple m =>
      obtain ⟨h1, h2⟩ := name_cut hi hj hr hr' h
      exact ⟨by rw [String.toList_inj.1 h1], h2⟩
    | special s => cases s <;> exact absurd h (name_bracket hi hr (by decide))
    | any => cases hj
    | composition a b => exact absurd h (name_bracket hi hr (by decide))
    | conjunction a b => exact absurd h (name_bracket hi hr (by decide))
    | quotient a b => exact absurd h (name_bracket hi hr (by decide))
  | special s =>
    intro j r r' hi hj hr hr' h
    cases j with
    | special s' => obtain ⟨e, h1⟩ := special h; exact ⟨by rw [e], h1⟩
    | simple m => cases s <;> exact absurd h.symm (name_bracket hj hr' (by decide))
    | any => cases hj
    | composition a b => cases s <;> simp [chars] at h
    | conjunction a b => cases s <;> simp [chars] at h
    | quotient a b => cases s <;> simp [chars] at h
  | any => intro j r r' hi; cases hi

theorem LocId.uniqueString_inj {i j : LocId} (hi : i.Clean) (hj : j.Clean)
    (h : i.uniqueString = j.uniqueString) : i = j := by
  have hn : Term [] := fun _ _ e => by cases e
  refine (chars_cut i hi hj hn hn ?_).1
  rw [List.append_nil, List.append_nil, ← toList_uniqueString, ← toList_uniqueString, h]

variable {F : Type} [ZoneLib F]

theorem Sys.Accepted.clean {s : Sys F} (hs : s.Accepted) (hn : s.CleanNames) {l : LocTree F} (hl : s.IsLoc l) :
    l.id.Clean := by
  induction hs generalizing l with
  | @comp order c ins outs id x hc ho h =>
    obtain ⟨p, hp, rfl⟩ := hl
    have hw := compileWith_wf hc ho h
    have hid := hw.ids p hp
    unfold CompComp.compileWith at h
    split at h
    · cases h
    obtain ⟨locs0, h1, h⟩ := bind_ok h
    obtain ⟨edges, h2, h⟩ := bind_ok h
    cases h
    obtain ⟨_, b2, _⟩ := buildLocations_spec h1
    obtain ⟨b, l', hl', hs'⟩ := b2 p ((ho locs0).mem_iff.1 hp)
    have h3 : p.1 = .simple l'.id := by
      rw [← hid]; obtain ⟨inv, hi, _⟩ := simple_spec hs'; rw [hi]; rfl
    rw [hid, h3]
    exact hn p hp _ h3
  | composition hl' hr' h ihl ihr =>
    obtain ⟨_, rfl⟩ := newComposition_eq h
    obtain ⟨a, b, ha, hb, hc⟩ := hl
    cases hc
    exact ⟨ihl hn.1 ha, ihr hn.2 hb⟩
  | conjunction hl' hr' h ihl ihr =>
    obtain ⟨_, _, rfl⟩ := newConjunction_eq h
    obtain ⟨a, b, ha, hb, hc⟩ := hl
    cases hc
    exact ⟨ihl hn.1 ha, ihr hn.2 hb⟩
  | quotient ht hs' h0 hn' h iht ihs =>
    obtain ⟨_, rfl⟩ := newQuotient_eq h
    rcases hl with ⟨a, b, ha, hb, rfl⟩ | rfl | rfl
    · exact ⟨iht hn.1 ha, ihs hn.2 hb⟩
    · exact trivial
    · exact trivial

/-- In a system with clean names a location is determined by its string. -/
theorem Sys.Accepted.string_inj {s : Sys F} (hs : s.Accepted) (hn : s.CleanNames) {a b : LocTree F}
    (ha : s.IsLoc a) (hb : s.IsLoc b) (h : a.id.uniqueString = b.id.uniqueString) : a = b :=
  hs.good.unique a b ha hb (LocId.uniqueString_inj (hs.clean hn ha) (hs.clean hn hb) h)

/-! ## Updates -/

theorem combinations_updates {P : CUpdate → Prop} {ls rs : List (Transition F)} {c : CompType} (hc : c.IsProd)
    {trans : List (Transition F)} (h : Transition.combinations ls rs c = .ok trans)
    (hl : ∀ t ∈ ls, ∀ u ∈ t.updates, P u) (hr : ∀ t ∈ rs, ∀ u ∈ t.updates, P u) :
    ∀ t ∈ trans, ∀ u ∈ t.updates, P u := by
  obtain ⟨trans', h1, h2, _⟩ := combinations_ok (ls := ls) (rs := rs) hc
  rw [h] at h1; cases h1
  intro t ht u hu
  obtain ⟨l, hl', r, hr', h3⟩ := h2 t ht
  obtain ⟨i, x, _, h4⟩ := combine_ok (l := l) (r := r) hc
  rw [h3] at h4; cases h4
  rcases List.mem_append.1 hu with hu | hu
  · exact hl l hl' u hu
  · exact hr r hr' u hu

/-- The updates of all transitions come from the components, or reset a quotient clock. -/
theorem Sys.next_updates {P : CUpdate → Prop} : ∀ (s : Sys F), s.AllUpdates P → ∀ {x : LocTree F} {a : String}
    {trans : List (Transition F)}, s.next x a = .ok trans → ∀ t ∈ trans, ∀ u ∈ t.updates, P u
  | .comp c, hs, x, a, tr, h => by
    unfold Sys.next CompComp.next at h
    split at h
    · cases h
    · split at h
      · cases h; intro t ht u hu
        rw [List.mem_singleton] at ht; subst ht; cases hu
      · split at h
        · cases h; intro t ht u hu
          rw [List.mem_singleton] at ht; subst ht; cases hu
        · split at h
          · cases h
          · rename_i es hes
            cases h
            intro t ht u hu
            obtain ⟨y, hy, rfl⟩ := List.mem_map.1 ht
            exact hs _ (lookup_mem hes) y (List.mem_filter.1 hy).1 u hu
  | .composition l r i o lu ru cm, hs, x, a, tr, h => by
    have stay : ∀ z : LocTree F, ∀ t ∈ [Transition.withoutId z], ∀ u ∈ t.updates, P u := by
      intro z t ht u hu
      rw [List.mem_singleton] at ht; subst ht; cases hu
    unfold Sys.next at h
    split at h
    · cases h
    · obtain ⟨ll, h1, h⟩ := bind_ok h
      obtain ⟨lr, h2, h⟩ := bind_ok h
      split at h
      · obtain ⟨left, h3, h⟩ := bind_ok h
        obtain ⟨right, h4, h⟩ := bind_ok h
        exact combinations_updates (.inr rfl) h (next_updates l hs.1 h3) (next_updates r hs.2 h4)
      · split at h
        · obtain ⟨left, h3, h⟩ := bind_ok h
          exact combinations_updates (.inr rfl) h (next_updates l hs.1 h3) (stay lr)
        · split at h
          · obtain ⟨right, h4, h⟩ := bind_ok h
            exact combinations_updates (.inr rfl) h (stay ll) (next_updates r hs.2 h4)
          · cases h
  | .conjunction l r i o, hs, x, a, tr, h => by
    unfold Sys.next at h
    split at h
    · cases h
    · obtain ⟨ll, h1, h⟩ := bind_ok h
      obtain ⟨lr, h2, h⟩ := bind_ok h
      obtain ⟨left, h3, h⟩ := bind_ok h
      obtain ⟨right, h4, h⟩ := bind_ok h
      exact combinations_updates (.inl rfl) h (next_updates l hs.1 h3) (next_updates r hs.2 h4)
  | .quotient T S i o clock ni, hs, x, a, tr, h => by
    unfold Sys.next at h
    split at h
    · cases h
    · split at h
      · split at h
        · cases h; intro t ht u hu
          rw [List.mem_singleton] at ht; subst ht; cases hu
        · cases h; simp
      · split at h
        · cases h; intro t ht u hu
          rw [List.mem_singleton] at ht; subst ht; cases hu
        · obtain ⟨lt, h1, h⟩ := bind_ok h
          obtain ⟨ls, h2, h⟩ := bind_ok h
          obtain ⟨tt, h3, h⟩ := bind_ok h
          obtain ⟨st, h4, h⟩ := bind_ok h
          cases h
          have ht' : ∀ t ∈ tt, ∀ u ∈ t.updates, P u := by
            unfold Sys.ifAvailable at h3
            split at h3
            · exact next_updates T hs.1 h3
            · cases h3; simp
          have hs' : ∀ t ∈ st, ∀ u ∈ t.updates, P u := by
            unfold Sys.ifAvailable at h4
            split at h4
            · exact next_updates S hs.2.1 h4
            · cases h4; simp
          intro t ht u hu
          have ht := (List.mem_filter.1 ht).1
          simp only [List.mem_append] at ht
          rcases ht with ((((ht | ht) | ht) | ht) | ht) | ht
          · split at ht
            · obtain ⟨t1, h5, ht⟩ := List.mem_flatMap.1 ht
              obtain ⟨t2, h6, rfl⟩ := List.mem_map.1 ht
              rcases List.mem_append.1 hu with hu | hu
              · exact ht' t1 h5 u hu
              · exact hs' t2 h6 u hu
            · cases ht
          · split at ht
            · obtain ⟨t2, h6, rfl⟩ := List.mem_map.1 ht
              exact hs' t2 h6 u hu
            · cases ht
          · split at ht <;> (rw [List.mem_singleton] at ht; subst ht; cases hu)
          · split at ht
            · obtain ⟨t2, h6, rfl⟩ := List.mem_map.1 ht
              rw [List.mem_singleton] at hu
              rw [hu]; exact hs.2.2
            · cases ht
          · split at ht
            · rw [List.mem_singleton] at ht; subst ht
              rw [List.mem_singleton] at hu
              rw [hu]; exact hs.2.2
            · cases ht
          · split at ht
            · obtain ⟨t1, h6, rfl⟩ := List.mem_map.1 ht
              exact ht' t1 h6 u hu
            · cases ht

/-! ## Exploration -/

/-- What processing some transitions adds to the worklist and the graph. -/
structure Grown (x y : List (LocTree F) × ClockGraph) : Prop where
  nodes : y.2.nodes = x.2.nodes
  edges : ∀ e ∈ x.2.edges, e ∈ y.2.edges
  wl : ∀ w ∈ x.1, w ∈ y.1

omit [ZoneLib F] in
theorem Grown.trans {x y z : List (LocTree F) × ClockGraph} (h : Grown x y) (h' : Grown y z) : Grown x z :=
  ⟨h'.nodes.trans h.nodes, fun e he => h'.edges e (h.edges e he), fun w hw => h'.wl w (h.wl w hw)⟩

omit [ZoneLib F] in
theorem Grown.refl (x : List (LocTree F) × ClockGraph) : Grown x x := ⟨rfl, fun _ h => h, fun _ h => h⟩

/-- The location has a node or waits for one. -/
def Known (x : List (LocTree F) × ClockGraph) (l : LocTree F) : Prop :=
  l.id.uniqueString ∈ x.2.nodes.map (·.1) ∨ l ∈ x.1

omit [ZoneLib F] in
theorem Known.mono {x y : List (LocTree F) × ClockGraph} (h : Grown x y) {l : LocTree F} (hl : Known x l) :
    Known y l := by
  rcases hl with hl | hl
  · exact .inl (by rw [h.nodes]; exact hl)
  · exact .inr (h.wl _ hl)

theorem visitTransition_spec (l : LocTree F) (a : String) (x : List (LocTree F) × ClockGraph) (t : Transition F) :
    Grown x (visitTransition l a x t) ∧ ClockEdge.ofTransition l a t ∈ (visitTransition l a x t).2.edges ∧
    Known (visitTransition l a x t) t.target ∧
    (∀ w ∈ (visitTransition l a x t).1, w ∈ x.1 ∨ w = t.target) ∧
    (∀ e ∈ (visitTransition l a x t).2.edges, e ∈ x.2.edges ∨ e = ClockEdge.ofTransition l a t) := by
  unfold visitTransition
  dsimp only
  split
  · rename_i hc
    refine ⟨⟨rfl, fun e he => by simp [he], fun w hw => hw⟩, by simp, .inl (by simpa using hc), fun w hw => .inl hw,
      fun e he => by simpa using he⟩
  · refine ⟨⟨rfl, fun e he => by simp [he], fun w hw => by simp [hw]⟩, by simp, .inr (by simp), fun w hw => ?_,
      fun e he => by simpa using he⟩
    simpa using hw

theorem visitTransitions_spec (l : LocTree F) (a : String) : ∀ (trans : List (Transition F))
    (x : List (LocTree F) × ClockGraph),
    Grown x (trans.foldl (visitTransition l a) x) ∧
    (∀ t ∈ trans, ClockEdge.ofTransition l a t ∈ (trans.foldl (visitTransition l a) x).2.edges ∧
      Known (trans.foldl (visitTransition l a) x) t.target) ∧
    (∀ w ∈ (trans.foldl (visitTransition l a) x).1, w ∈ x.1 ∨ ∃ t ∈ trans, w = t.target) ∧
    (∀ e ∈ (trans.foldl (visitTransition l a) x).2.edges, e ∈ x.2.edges ∨
      ∃ t ∈ trans, e = ClockEdge.ofTransition l a t)
  | [], x => ⟨.refl x, by simp, fun w hw => .inl hw, fun e he => .inl he⟩
  | t :: tl, x => by
    obtain ⟨a1, a2, a3, a4, a5⟩ := visitTransition_spec l a x t
    obtain ⟨b1, b2, b3, b4⟩ := visitTransitions_spec l a tl (visitTransition l a x t)
    rw [List.foldl_cons]
    refine ⟨a1.trans b1, fun t' ht' => ?_, fun w hw => ?_, fun e he => ?_⟩
    · rcases List.mem_cons.1 ht' with rfl | ht'
      · exact ⟨b1.edges _ a2, a3.mono b1⟩
      · exact b2 t' ht'
    · rcases b3 w hw with hw | ⟨t', ht', rfl⟩
      · rcases a4 w hw with hw | rfl
        · exact .inl hw
        · exact .inr ⟨t, by simp, rfl⟩
      · exact .inr ⟨t', by simp [ht'], rfl⟩
    · rcases b4 e he with he | ⟨t', ht', rfl⟩
      · rcases a5 e he with he | rfl
        · exact .inl he
        · exact .inr ⟨t, by simp, rfl⟩
      · exact .inr ⟨t', by simp [ht'], rfl⟩

/-- The transition belongs to one of the actions. -/
def TS.HasMove (ts : TS F) (acts : List String) (l : LocTree F) (a : String) (t : Transition F) : Prop :=
  a ∈ acts ∧ ∃ trans, ts.nextIfAvailable l a = .ok trans ∧ t ∈ trans

theorem visitActions_spec {ts : TS F} {l : LocTree F} : ∀ (acts : List String)
    {x y : List (LocTree F) × ClockGraph}, acts.foldlM (visitAction ts l) x = .ok y →
    Grown x y ∧
    (∀ a t, ts.HasMove acts l a t → ClockEdge.ofTransition l a t ∈ y.2.edges ∧ Known y t.target) ∧
    (∀ w ∈ y.1, w ∈ x.1 ∨ ∃ a t, ts.HasMove acts l a t ∧ w = t.target) ∧
    (∀ e ∈ y.2.edges, e ∈ x.2.edges ∨ ∃ a t, ts.HasMove acts l a t ∧ e = ClockEdge.ofTransition l a t)
  | [], x, y, h => by
    cases h
    exact ⟨.refl x, fun a t ht => (by cases ht.1), fun w hw => .inl hw, fun e he => .inl he⟩
  | a :: acts, x, y, h => by
    rw [List.foldlM_cons] at h
    obtain ⟨x1, h1, h2⟩ := bind_ok h
    obtain ⟨trans, h3, h4⟩ := bind_ok h1
    cases h4
    obtain ⟨a1, a2, a3, a4⟩ := visitTransitions_spec l a trans x
    obtain ⟨b1, b2, b3, b4⟩ := visitActions_spec acts h2
    refine ⟨a1.trans b1, fun a' t ht => ?_, fun w hw => ?_, fun e he => ?_⟩
    · obtain ⟨ha, trans', h5, h6⟩ := ht
      rcases List.mem_cons.1 ha with rfl | ha
      · rw [h3] at h5; cases h5
        exact ⟨b1.edges _ (a2 t h6).1, (a2 t h6).2.mono b1⟩
      · exact b2 a' t ⟨ha, trans', h5, h6⟩
    · rcases b3 w hw with hw | ⟨a', t, ⟨ha, ht⟩, rfl⟩
      · rcases a3 w hw with hw | ⟨t, ht, rfl⟩
        · exact .inl hw
        · exact .inr ⟨a, t, ⟨by simp, trans, h3, ht⟩, rfl⟩
      · exact .inr ⟨a', t, ⟨by simp [ha], ht⟩, rfl⟩
    · rcases b4 e he with he | ⟨a', t, ⟨ha, ht⟩, rfl⟩
      · rcases a4 e he with he | ⟨t, ht, rfl⟩
        · exact .inl he
        · exact .inr ⟨a, t, ⟨by simp, trans, h3, ht⟩, rfl⟩
      · exact .inr ⟨a', t, ⟨by simp [ha], ht⟩, rfl⟩

/-- The state of the exploration: nodes are locations whose transitions have been processed, the locations in
the worklist are locations of the system. -/
structure Explored (s : Sys F) (acts : List String) (x : List (LocTree F) × ClockGraph) : Prop where
  nodes : ∀ p ∈ x.2.nodes, ∃ l, s.IsLoc l ∧ p = (l.id.uniqueString, ClockNode.ofLoc l) ∧
    ∀ a t, s.ts.HasMove acts l a t → ClockEdge.ofTransition l a t ∈ x.2.edges ∧ Known x t.target
  wl : ∀ w ∈ x.1, s.IsLoc w
  edges : ∀ e ∈ x.2.edges, ∃ l a t, s.IsLoc l ∧ s.ts.HasMove acts l a t ∧ e = ClockEdge.ofTransition l a t

theorem hasMove_isLoc {s : Sys F} (hs : s.Good) {acts : List String} {l : LocTree F} (hl : s.IsLoc l) {a : String}
    {t : Transition F} (h : s.ts.HasMove acts l a t) : s.IsLoc t.target ∧ GoodTrans s.clocks t := by
  obtain ⟨_, trans, h1, h2⟩ := h
  unfold TS.nextIfAvailable at h1
  split at h1
  · rename_i ha
    obtain ⟨trans', h3, h4⟩ := hs.next l a hl ha
    have h1 : s.next l a = .ok trans := h1
    rw [h3] at h1; cases h1
    exact h4 t h2
  · cases h1; cases h2

theorem findEdgesAndNodes_spec {s : Sys F} (hs : s.Good) {acts : List String} : ∀ (fuel : Nat)
    {wl : List (LocTree F)} {g g' : ClockGraph}, Explored s acts (wl, g) →
    findEdgesAndNodes s.ts acts fuel wl g = .ok g' →
    Explored s acts ([], g') ∧ ∀ l, Known (wl, g) l → Known (([] : List (LocTree F)), g') l
  | 0, [], g, g', hx, h => by cases h; exact ⟨hx, fun _ h => h⟩
  | _ + 1, [], g, g', hx, h => by cases h; exact ⟨hx, fun _ h => h⟩
  | 0, _ :: _, _, _, _, h => by cases h
  | fuel + 1, l :: wl, g, g', hx, h => by
    unfold findEdgesAndNodes at h
    obtain ⟨⟨wl1, g1⟩, h1, h2⟩ := bind_ok h
    obtain ⟨c1, c2, c3, c4⟩ := visitActions_spec acts h1
    have hl := hx.wl l (by simp)
    have hknown : ∀ x, Known (l :: wl, g) x → Known (wl1, g1) x := by
      intro x hk
      refine Known.mono c1 ?_
      rcases hk with hk | hk
      · exact .inl (hmInsert_keys.2 (.inr hk))
      · rcases List.mem_cons.1 hk with rfl | hk
        · exact .inl (hmInsert_keys.2 (.inl rfl))
        · exact .inr hk
    have hex : Explored s acts (wl1, g1) := by
      refine ⟨fun p hp => ?_, fun w hw => ?_, fun e he => ?_⟩
      · rw [show (wl1, g1).2.nodes = _ from c1.nodes] at hp
        rcases mem_hmInsert hp with rfl | hp
        · exact ⟨l, hl, rfl, c2⟩
        · obtain ⟨l', h3, h4, h5⟩ := hx.nodes p hp
          refine ⟨l', h3, h4, fun a t ht => ?_⟩
          obtain ⟨h6, h7⟩ := h5 a t ht
          exact ⟨c1.edges _ h6, hknown _ h7⟩
      · rcases c3 w hw with hw | ⟨a, t, ht, rfl⟩
        · exact hx.wl w (by simp [hw])
        · exact (hasMove_isLoc hs hl ht).1
      · rcases c4 e he with he | ⟨a, t, ht, rfl⟩
        · exact hx.edges e he
        · exact ⟨l, a, t, hl, ht, rfl⟩
    obtain ⟨d1, d2⟩ := findEdgesAndNodes_spec hs fuel hex h2
    exact ⟨d1, fun x hk => d2 x (hknown x hk)⟩

/-- The graph covers the locations and transitions that can be reached through transitions. -/
structure ClockGraph.Covers (g : ClockGraph) (s : Sys F) (l : LocTree F) : Prop where
  loc : s.IsLoc l
  node : (l.id.uniqueString, ClockNode.ofLoc l) ∈ g.nodes
  edge : ∀ a trans t, s.ts.hasAction a = true → s.ts.next l a = .ok trans → t ∈ trans →
    ClockEdge.ofTransition l a t ∈ g.edges

theorem Sys.linked_of_reach {s : Sys F} {l : LocTree F} {v : Val} (h : s.ts.Reach l v) : s.Linked l := by
  induction h with
  | init h _ => exact .init h
  | act _ hs ih =>
    obtain ⟨ha, trans, hn, t, ht, _, rfl, _⟩ := hs
    exact .step ih ha hn ht
  | delay _ _ ih => exact ih

theorem graph_covers {s : Sys F} (hs : s.Accepted) (hn : s.CleanNames) {acts : List String}
    (ha : s.ts.IsActions acts) {fuel : Nat} {g : ClockGraph} (h : analysisGraph s.ts acts fuel = .ok g)
    {l : LocTree F} (hl : s.Linked l) : g.Covers s l := by
  have hgood := hs.good
  unfold analysisGraph at h
  obtain ⟨o, h1, h2⟩ := bind_ok h
  cases o with
  | none => cases h2
  | some l0 =>
    obtain ⟨o, h3, h4⟩ := hgood.initial
    have h3' : s.ts.initialLoc = .ok o := h3
    rw [h1] at h3'; cases h3'
    have hl0 := h4 l0 rfl
    have hex0 : Explored s acts ([l0], ⟨[], []⟩) :=
      ⟨by simp, fun w hw => by rw [List.mem_singleton] at hw; rw [hw]; exact hl0, by simp⟩
    obtain ⟨hex, hk⟩ := findEdgesAndNodes_spec hgood fuel hex0 h2
    have closed : ∀ x, s.IsLoc x → Known (([] : List (LocTree F)), g) x → g.Covers s x ∧
        ∀ a trans t, s.ts.hasAction a = true → s.ts.next x a = .ok trans → t ∈ trans →
          Known (([] : List (LocTree F)), g) t.target := by
      intro x hx hkx
      rcases hkx with hkx | hkx
      · obtain ⟨p, hp, he⟩ := List.mem_map.1 hkx
        obtain ⟨x', h5, rfl, h6⟩ := hex.nodes p hp
        obtain rfl := hs.string_inj hn h5 hx he
        have mv : ∀ a trans t, s.ts.hasAction a = true → s.ts.next x' a = .ok trans → t ∈ trans →
            s.ts.HasMove acts x' a t := by
          intro a trans t h7 h8 h9
          refine ⟨(ha.2 a).2 ?_, trans, ?_, h9⟩
          · simpa [TS.hasAction] using h7
          · unfold TS.nextIfAvailable; rw [if_pos h7, h8]
        exact ⟨⟨h5, hp, fun a trans t h7 h8 h9 => (h6 a t (mv a trans t h7 h8 h9)).1⟩,
          fun a trans t h7 h8 h9 => (h6 a t (mv a trans t h7 h8 h9)).2⟩
      · cases hkx
    have : s.IsLoc l ∧ Known (([] : List (LocTree F)), g) l := by
      induction hl with
      | init h =>
        rw [h1] at h; cases h
        exact ⟨hl0, hk _ (.inr (by simp))⟩
      | step _ h5 h6 h7 ih =>
        refine ⟨?_, (closed _ ih.1 ih.2).2 _ _ _ h5 h6 h7⟩
        obtain ⟨trans', h8, h9⟩ := hgood.next _ _ ih.1 h5
        have h6' : s.next _ _ = _ := h6
        rw [h8] at h6'; cases h6'
        exact (h9 _ h7).1
    exact (closed l this.1 this.2).1

/-- Everything in the graph comes from the system. -/
theorem graph_from {s : Sys F} (hs : s.Good) {acts : List String} {fuel : Nat} {g : ClockGraph}
    (h : analysisGraph s.ts acts fuel = .ok g) : Explored s acts ([], g) := by
  unfold analysisGraph at h
  obtain ⟨o, h1, h2⟩ := bind_ok h
  cases o with
  | none => cases h2
  | some l0 =>
    obtain ⟨o, h3, h4⟩ := hs.initial
    have h3' : s.ts.initialLoc = .ok o := h3
    rw [h1] at h3'; cases h3'
    have hl0 := h4 l0 rfl
    have hex0 : Explored s acts ([l0], ⟨[], []⟩) :=
      ⟨by simp, fun w hw => by rw [List.mem_singleton] at hw; rw [hw]; exact hl0, by simp⟩
    exact (findEdgesAndNodes_spec hs fuel hex0 h2).1

theorem clocksOf_lt {d : Disj} {n c : Nat} (hd : d.InDim n) (hc : c ∈ d.clocksOf) : c < n := by
  obtain ⟨k, hk, hc⟩ := List.mem_flatMap.1 hc
  obtain ⟨x, hx, hc⟩ := List.mem_flatMap.1 hc
  obtain ⟨h1, h2⟩ := hd k hk x hx
  simp only [List.mem_cons, List.not_mem_nil, or_false] at hc
  rcases hc with rfl | rfl
  · exact h1
  · exact h2

/-- The clocks in the graph are clocks of the dimension. -/
theorem graph_deps {s : Sys F} (hs : s.Good) {acts : List String} {fuel : Nat} {g : ClockGraph}
    (h : analysisGraph s.ts acts fuel = .ok g) :
    (∀ e ∈ g.edges, ∀ c ∈ e.deps, c < dim F) ∧ ∀ p ∈ g.nodes, ∀ c ∈ p.2.deps, c < dim F := by
  have hx := graph_from hs h
  refine ⟨fun e he c hc => ?_, fun p hp c hc => ?_⟩
  · obtain ⟨l, a, t, _, _, rfl⟩ := hx.edges e he
    exact clocksOf_lt (minimal_inDim _) hc
  · obtain ⟨l, _, rfl, _⟩ := hx.nodes p hp
    unfold ClockNode.ofLoc at hc
    dsimp only at hc
    cases hi : l.inv with
    | none => rw [hi] at hc; cases hc
    | some i => rw [hi] at hc; exact clocksOf_lt (minimal_inDim _) hc

end Reveaal
