import Verif.Model.SaveComponent
import Verif.Lemmas.ClockGraph

/-!
# Printed location identifiers

Printing leaves out brackets between equal operators, so different identifiers can be printed alike, for example
`(a||b)||c` and `a||(b||c)`.  Within one system all identifiers have the same shape, and there the printed form
determines the location.
-/

namespace Reveaal
open ZoneLib

/-- Identifiers of the same shape, where a special location can take the place of a quotient. -/
inductive LocId.Alike : LocId → LocId → Prop
  | simple (n m : String) : Alike (.simple n) (.simple m)
  | conjunction {a b a' b' : LocId} : Alike a a' → Alike b b' → Alike (.conjunction a b) (.conjunction a' b')
  | composition {a b a' b' : LocId} : Alike a a' → Alike b b' → Alike (.composition a b) (.composition a' b')
  | quotient {a b a' b' : LocId} : Alike a a' → Alike b b' → Alike (.quotient a b) (.quotient a' b')
  | specialLeft (s : SpecialLoc) (a b : LocId) : Alike (.special s) (.quotient a b)
  | specialRight (s : SpecialLoc) (a b : LocId) : Alike (.quotient a b) (.special s)
  | special (s s' : SpecialLoc) : Alike (.special s) (.special s')

/-- Put brackets around. -/
def wrapChars (bare : Bool) (cs : List Char) : List Char := if bare then cs else '(' :: (cs ++ [')'])

/-- Printed without brackets as an operand of the conjunction. -/
def LocId.bareConj : LocId → Bool
  | .conjunction _ _ | .simple _ => true
  | _ => false
/-- Printed without brackets as an operand of the composition. -/
def LocId.bareComp : LocId → Bool
  | .composition _ _ | .simple _ => true
  | _ => false
/-- Printed without brackets as an operand of the quotient. -/
def LocId.bareQuot : LocId → Bool
  | .simple _ => true
  | _ => false

/-- The characters of `display`. -/
def LocId.shown : LocId → List Char
  | .conjunction a b => wrapChars a.bareConj a.shown ++ '&' :: '&' :: wrapChars b.bareConj b.shown
  | .composition a b => wrapChars a.bareComp a.shown ++ '|' :: '|' :: wrapChars b.bareComp b.shown
  | .quotient a b => wrapChars a.bareQuot a.shown ++ '\\' :: '\\' :: wrapChars b.bareQuot b.shown
  | .any => ['_']
  | .simple n => n.toList
  | .special .universal => ['[', 'U', 'n', 'i', 'v', 'e', 'r', 's', 'a', 'l', ']']
  | .special .error => ['[', 'E', 'r', 'r', 'o', 'r', ']']

theorem LocId.toList_parenConj (i : LocId) (s : String) :
    (i.parenConj s).toList = wrapChars i.bareConj s.toList := by
  cases i <;> simp [parenConj, bareConj, wrapChars, String.toList_append]

theorem LocId.toList_parenComp (i : LocId) (s : String) :
    (i.parenComp s).toList = wrapChars i.bareComp s.toList := by
  cases i <;> simp [parenComp, bareComp, wrapChars, String.toList_append]

theorem LocId.toList_parenQuot (i : LocId) (s : String) :
    (i.parenQuot s).toList = wrapChars i.bareQuot s.toList := by
  cases i <;> simp [parenQuot, bareQuot, wrapChars, String.toList_append]

theorem LocId.toList_display (i : LocId) : i.display.toList = i.shown := by
  induction i with
  | composition a b iha ihb =>
    rw [display, shown]; simp [String.toList_append, toList_parenComp, iha, ihb]
  | conjunction a b iha ihb =>
    rw [display, shown]; simp [String.toList_append, toList_parenConj, iha, ihb]
  | quotient a b iha ihb =>
    rw [display, shown]; simp [String.toList_append, toList_parenQuot, iha, ihb]
  | any => rw [display, shown]; decide
  | simple n => rfl
  | special s => cases s <;> rw [display, shown, SpecialLoc.toStr] <;> decide

theorem LocId.Alike.bare {i j : LocId} (h : i.Alike j) :
    i.bareConj = j.bareConj ∧ i.bareComp = j.bareComp ∧ i.bareQuot = j.bareQuot := by
  cases h <;> exact ⟨rfl, rfl, rfl⟩

theorem wrap_cut {i j : LocId} {bare : Bool} {r r' : List Char}
    (ih : ∀ {r r' : List Char}, Term r → Term r' → i.shown ++ r = j.shown ++ r' → i = j ∧ r = r')
    (hr : Term r) (hr' : Term r') (h : wrapChars bare i.shown ++ r = wrapChars bare j.shown ++ r') :
    i = j ∧ r = r' := by
  cases bare with
  | true => exact ih hr hr' h
  | false =>
    simp only [wrapChars, Bool.false_eq_true, if_false, List.cons_append, List.append_assoc, List.nil_append,
      List.cons.injEq, true_and] at h
    obtain ⟨e, h1⟩ := ih (term_cons (by decide)) (term_cons (by decide)) h
    simp only [List.cons.injEq, true_and] at h1
    exact ⟨e, h1⟩

/-- What a printed quotient starts with. -/
theorem shown_not_bracket {a : LocId} {bare : Bool} {r r' : List Char} (ha : a.Clean) (hb : a.bareQuot = bare)
    (hr : Term r) : wrapChars bare a.shown ++ r ≠ '[' :: r' := by
  cases bare with
  | false => simp [wrapChars]
  | true =>
    cases a with
    | simple n =>
      intro h
      exact name_bracket (n := n.toList) ha hr (by decide) h
    | _ => cases hb

/-- Identifiers of one shape with clean names can be read back from their printed form. -/
theorem LocId.Alike.shown_cut {i j : LocId} (hij : i.Alike j) : ∀ {r r' : List Char}, i.Clean → j.Clean → Term r →
    Term r' → i.shown ++ r = j.shown ++ r' → i = j ∧ r = r' := by
  induction hij with
  | simple n m =>
    intro r r' hi hj hr hr' h
    obtain ⟨h1, h2⟩ := name_cut hi hj hr hr' h
    exact ⟨by rw [String.toList_inj.1 h1], h2⟩
  | @conjunction a b a' b' ha hb iha ihb =>
    intro r r' hi hj hr hr' h
    simp only [LocId.shown, List.append_assoc, List.cons_append] at h
    rw [ha.bare.1, hb.bare.1] at h
    obtain ⟨e1, h1⟩ := wrap_cut (fun h1 h2 => iha hi.1 hj.1 h1 h2) (term_cons (by decide)) (term_cons (by decide)) h
    simp only [List.cons.injEq, true_and] at h1
    obtain ⟨e2, h2⟩ := wrap_cut (fun h1 h2 => ihb hi.2 hj.2 h1 h2) hr hr' h1
    exact ⟨by rw [e1, e2], h2⟩
  | @composition a b a' b' ha hb iha ihb =>
    intro r r' hi hj hr hr' h
    simp only [LocId.shown, List.append_assoc, List.cons_append] at h
    rw [ha.bare.2.1, hb.bare.2.1] at h
    obtain ⟨e1, h1⟩ := wrap_cut (fun h1 h2 => iha hi.1 hj.1 h1 h2) (term_cons (by decide)) (term_cons (by decide)) h
    simp only [List.cons.injEq, true_and] at h1
    obtain ⟨e2, h2⟩ := wrap_cut (fun h1 h2 => ihb hi.2 hj.2 h1 h2) hr hr' h1
    exact ⟨by rw [e1, e2], h2⟩
  | @quotient a b a' b' ha hb iha ihb =>
    intro r r' hi hj hr hr' h
    simp only [LocId.shown, List.append_assoc, List.cons_append] at h
    rw [ha.bare.2.2, hb.bare.2.2] at h
    obtain ⟨e1, h1⟩ := wrap_cut (fun h1 h2 => iha hi.1 hj.1 h1 h2) (term_cons (by decide)) (term_cons (by decide)) h
    simp only [List.cons.injEq, true_and] at h1
    obtain ⟨e2, h2⟩ := wrap_cut (fun h1 h2 => ihb hi.2 hj.2 h1 h2) hr hr' h1
    exact ⟨by rw [e1, e2], h2⟩
  | specialLeft s a b =>
    intro r r' hi hj hr hr' h
    simp only [LocId.shown, List.append_assoc, List.cons_append] at h
    cases s <;> exact absurd h.symm (shown_not_bracket hj.1 rfl (term_cons (by decide)))
  | specialRight s a b =>
    intro r r' hi hj hr hr' h
    simp only [LocId.shown, List.append_assoc, List.cons_append] at h
    cases s <;> exact absurd h (shown_not_bracket hi.1 rfl (term_cons (by decide)))
  | special s s' =>
    intro r r' hi hj hr hr' h
    cases s <;> cases s' <;> simp only [LocId.shown, List.cons_append, List.nil_append, List.cons.injEq] at h <;>
      simp at h ⊢ <;> exact h

theorem LocId.Alike.display_inj {i j : LocId} (hij : i.Alike j) (hi : i.Clean) (hj : j.Clean)
    (h : i.display = j.display) : i = j := by
  have hn : Term [] := fun _ _ e => by cases e
  refine (hij.shown_cut hi hj hn hn ?_).1
  rw [List.append_nil, List.append_nil, ← LocId.toList_display, ← LocId.toList_display, h]

variable {F : Type} [ZoneLib F]

theorem Sys.Accepted.simple_id {x : CompComp F} (hs : (Sys.comp x).Accepted) {l : LocTree F} (hl : (Sys.comp x).IsLoc l) :
    ∃ n, l.id = .simple n := by
  generalize hx : Sys.comp x = s at hs hl
  cases hs with
  | @comp order c ins outs id y hc ho h =>
    obtain ⟨p, hp, rfl⟩ := hl
    unfold CompComp.compileWith at h
    split at h
    · cases h
    obtain ⟨locs0, h1, h⟩ := bind_ok h
    obtain ⟨edges, h2, h⟩ := bind_ok h
    cases h
    obtain ⟨_, b2, _⟩ := buildLocations_spec h1
    obtain ⟨b, l', hl', hs'⟩ := b2 p ((ho locs0).mem_iff.1 hp)
    obtain ⟨inv, hi, _⟩ := simple_spec hs'
    rw [hi]
    exact ⟨_, rfl⟩
  | composition hl' hr' h => obtain ⟨_, rfl⟩ := newComposition_eq h; cases hx
  | conjunction hl' hr' h => obtain ⟨_, _, rfl⟩ := newConjunction_eq h; cases hx
  | quotient ht hs' h0 hn' h => obtain ⟨_, rfl⟩ := newQuotient_eq h; cases hx

theorem Sys.Accepted.alike {s : Sys F} (hs : s.Accepted) {l m : LocTree F} (hl : s.IsLoc l) (hm : s.IsLoc m) :
    l.id.Alike m.id := by
  induction hs generalizing l m with
  | @comp order c ins outs id x hc ho h =>
    obtain ⟨n, hn⟩ := (Sys.Accepted.comp hc ho h).simple_id hl
    obtain ⟨k, hk⟩ := (Sys.Accepted.comp hc ho h).simple_id hm
    rw [hn, hk]
    exact .simple _ _
  | composition hl' hr' h ihl ihr =>
    obtain ⟨_, rfl⟩ := newComposition_eq h
    obtain ⟨a, b, ha, hb, hc⟩ := hl
    obtain ⟨a', b', ha', hb', hc'⟩ := hm
    cases hc
    cases hc'
    exact .composition (ihl ha ha') (ihr hb hb')
  | conjunction hl' hr' h ihl ihr =>
    obtain ⟨_, _, rfl⟩ := newConjunction_eq h
    obtain ⟨a, b, ha, hb, hc⟩ := hl
    obtain ⟨a', b', ha', hb', hc'⟩ := hm
    cases hc
    cases hc'
    exact .conjunction (ihl ha ha') (ihr hb hb')
  | quotient ht hs' h0 hn' h iht ihs =>
    obtain ⟨_, rfl⟩ := newQuotient_eq h
    rcases hl with ⟨a, b, ha, hb, rfl⟩ | rfl | rfl <;> rcases hm with ⟨a', b', ha', hb', rfl⟩ | rfl | rfl
    · exact .quotient (iht ha ha') (ihs hb hb')
    · exact .specialRight _ _ _
    · exact .specialRight _ _ _
    · exact .specialLeft _ _ _
    · exact .special _ _
    · exact .special _ _
    · exact .specialLeft _ _ _
    · exact .special _ _
    · exact .special _ _

/-- In a system whose names can be read a location is determined by its printed identifier. -/
theorem Sys.Accepted.display_inj {s : Sys F} (hs : s.Accepted) (hn : s.Readable) {a b : LocTree F}
    (ha : s.IsLoc a) (hb : s.IsLoc b) (h : a.id.display = b.id.display) : a = b := by
  refine hs.good.unique a b ha hb ?_
  have hal := hs.alike ha hb
  have clean : s.CleanNames → a.id = b.id := fun hn => hal.display_inj (hs.clean hn ha) (hs.clean hn hb) h
  cases s with
  | comp c =>
    obtain ⟨n, hn⟩ := hs.simple_id ha
    obtain ⟨k, hk⟩ := hs.simple_id hb
    rw [hn, hk] at h ⊢
    exact congrArg _ h
  | composition | conjunction | quotient => exact clean hn

end Reveaal
