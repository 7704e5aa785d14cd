import Verif.Model.LocalConsistency
import Verif.Lemmas.Product
import Verif.Props.C05

/-! # What a successful determinism check has seen -/

namespace Reveaal
open ZoneLib
variable {F : Type} [ZoneLib F]

/-- A state is covered by a list: some state of the list has the same location and a larger zone. -/
def Covered (P : List (State F)) (s : State F) : Prop :=
  ∃ q ∈ P, s.loc.eqv q.loc = true ∧ den s.zone ⊆ den q.zone

theorem isContainedIn_iff {P : List (State F)} {s : State F} :
    s.isContainedIn P = true ↔ Covered P s := by
  unfold State.isContainedIn Covered State.isSubsetOf
  rw [List.any_eq_true]
  constructor
  · rintro ⟨q, hq, h⟩
    split at h
    · cases h
    · rename_i hn
      exact ⟨q, hq, by simpa using hn, (subsetEq_iff _ _).1 h⟩
  · rintro ⟨q, hq, h1, h2⟩
    exact ⟨q, hq, by simp [h1, (subsetEq_iff _ _).2 h2]⟩

theorem Covered.mono {P Q : List (State F)} (h : ∀ s ∈ P, s ∈ Q) {s : State F} (hc : Covered P s) :
    Covered Q s := by
  obtain ⟨q, hq, h'⟩ := hc
  exact ⟨q, h q hq, h'⟩

omit [ZoneLib F] in
theorem eqv_refl (l : LocTree F) : l.eqv l = true := by simp [LocTree.eqv]

theorem covered_of_mem {P : List (State F)} {s : State F} (h : s ∈ P) : Covered P s :=
  ⟨s, h, eqv_refl _, subset_rfl⟩

/-- The check of the transitions of one action from `s` was passed, with all successors in `P`. -/
structure TransChecked (ts : TS F) (P : List (State F)) (s : State F) (trans : List (Transition F)) :
    Prop where
  disjoint : trans.Pairwise fun t t' => (t.useTransition s).1 = true → (t'.useTransition s).1 = true →
    ∀ v, v ∈ den (s.loc.applyInvariants t.allowed) → v ∉ den (s.loc.applyInvariants t'.allowed)
  next : ∀ t ∈ trans, (t.useTransition s).1 = true →
    ∃ ns, (t.useTransition s).2.extrapolate ts = .ok ns ∧ Covered P ns

theorem TransChecked.mono {ts : TS F} {P Q : List (State F)} (h : ∀ s ∈ P, s ∈ Q) {s : State F}
    {trans : List (Transition F)} (hc : TransChecked ts P s trans) : TransChecked ts Q s trans :=
  ⟨hc.disjoint, fun t ht hu =>
    let ⟨ns, h1, h2⟩ := hc.next t ht hu
    ⟨ns, h1, h2.mono h⟩⟩

/-- All actions from `s` were checked. -/
def Processed (ts : TS F) (P : List (State F)) (s : State F) : Prop :=
  ∀ a, ts.hasAction a = true → ∃ trans, ts.next s.loc a = .ok trans ∧ TransChecked ts P s trans

theorem Processed.mono {ts : TS F} {P Q : List (State F)} (h : ∀ s ∈ P, s ∈ Q) {s : State F}
    (hc : Processed ts P s) : Processed ts Q s := fun a ha =>
  let ⟨tr, h1, h2⟩ := hc a ha
  ⟨tr, h1, h2.mono h⟩

/-- From the list `p` the search went on to `r`, and everything new in `r` was processed. -/
def Extends (ts : TS F) (p r : List (State F)) : Prop :=
  (∀ q ∈ p, q ∈ r) ∧ ∀ q ∈ r, q ∈ p ∨ Processed ts r q

theorem Extends.refl (ts : TS F) (p : List (State F)) : Extends ts p p := ⟨fun _ h => h, fun _ h => .inl h⟩

theorem Extends.trans {ts : TS F} {p q r : List (State F)} (h1 : Extends ts p q) (h2 : Extends ts q r) :
    Extends ts p r :=
  ⟨fun x hx => h2.1 x (h1.1 x hx), fun x hx => (h2.2 x hx).elim
    (fun hq => (h1.2 x hq).imp id fun h => h.mono h2.1) .inr⟩

theorem detTransitions_spec {ts : TS F} {visit : State F → List (State F) → Res (Visit (DetFailure F) F)}
    (hv : ∀ s p r, visit s p = .ok (none, r) → Extends ts p r ∧ Covered r s) {s : State F}
    {a : String} : ∀ {trans : List (Transition F)} {fed : F} {p r : List (State F)},
    detTransitions visit ts s a trans fed p = .ok (none, r) →
    Extends ts p r ∧ TransChecked ts r s trans ∧ ∀ t ∈ trans, (t.useTransition s).1 = true →
      ∀ v, v ∈ den (s.loc.applyInvariants t.allowed) → v ∉ den fed := by
  intro trans
  induction trans with
  | nil =>
    intro fed p r h
    simp only [detTransitions, Except.ok.injEq, Prod.mk.injEq, true_and] at h
    subst h
    exact ⟨.refl ts p, ⟨.nil, by simp⟩, by simp⟩
  | cons t tl ih =>
    intro fed p r h
    rw [detTransitions] at h
    cases hu : t.useTransition s with
    | mk b ns =>
      rw [hu] at h
      cases b with
      | false =>
        obtain ⟨h1, h2, h3⟩ := ih h
        refine ⟨h1, ⟨List.pairwise_cons.2 ⟨fun t' _ hc => ?_, h2.disjoint⟩, ?_⟩, ?_⟩
        · rw [hu] at hc; cases hc
        · intro t' ht' hc
          rcases List.mem_cons.1 ht' with rfl | ht'
          · rw [hu] at hc; cases hc
          · exact h2.next t' ht' hc
        · intro t' ht' hc
          rcases List.mem_cons.1 ht' with rfl | ht'
          · rw [hu] at hc; cases hc
          · exact h3 t' ht' hc
      | true =>
        dsimp only at h
        split at h
        · cases h
        · rename_i hi
          obtain ⟨ns', hns, h⟩ := bind_ok h
          obtain ⟨⟨o, p'⟩, hvis, h⟩ := bind_ok h
          cases o with
          | some x => cases h
          | none =>
            obtain ⟨e1, c1⟩ := hv _ _ _ hvis
            obtain ⟨h1, h2, h3⟩ := ih h
            have hdis : ∀ v, v ∈ den (s.loc.applyInvariants t.allowed) → v ∉ den fed := by
              intro v h1 h2
              exact hi ((hasIntersection_iff _ _).2 ⟨v, h1, h2⟩)
            refine ⟨e1.trans h1, ⟨List.pairwise_cons.2 ⟨?_, h2.disjoint⟩, ?_⟩, ?_⟩
            · intro t' ht' _ hc' v hv1 hv2
              refine h3 t' ht' hc' v hv2 ?_
              rw [den_append]; exact .inr hv1
            · intro t' ht' hc
              rcases List.mem_cons.1 ht' with rfl | ht'
              · rw [hu]; exact ⟨ns', hns, c1.mono h1.1⟩
              · exact h2.next t' ht' hc
            · intro t' ht' hc
              rcases List.mem_cons.1 ht' with rfl | ht'
              · exact hdis
              · intro v hv1 hv2
                refine h3 t' ht' hc v hv1 ?_
                rw [den_append]; exact .inl hv2

theorem detActions_spec {ts : TS F} {visit : State F → List (State F) → Res (Visit (DetFailure F) F)}
    (hv : ∀ s p r, visit s p = .ok (none, r) → Extends ts p r ∧ Covered r s) {s : State F} :
    ∀ {as : List String} {p r : List (State F)}, detActions visit ts s as p = .ok (none, r) →
    Extends ts p r ∧ ∀ a ∈ as, ∃ trans, ts.next s.loc a = .ok trans ∧ TransChecked ts r s trans := by
  intro as
  induction as with
  | nil =>
    intro p r h
    simp only [detActions, Except.ok.injEq, Prod.mk.injEq, true_and] at h
    subst h
    exact ⟨.refl ts p, by simp⟩
  | cons a as ih =>
    intro p r h
    rw [detActions] at h
    obtain ⟨trans, hn, h⟩ := bind_ok h
    obtain ⟨⟨o, p'⟩, ht, h⟩ := bind_ok h
    cases o with
    | some x => cases h
    | none =>
      obtain ⟨e1, c1, _⟩ := detTransitions_spec hv ht
      obtain ⟨e2, h2⟩ := ih h
      refine ⟨e1.trans e2, fun a' ha' => ?_⟩
      rcases List.mem_cons.1 ha' with rfl | ha'
      · exact ⟨trans, hn, c1.mono e2.1⟩
      · exact h2 a' ha'

theorem detHelper_spec {ts : TS F} {ord : Nat → List String} (hord : ∀ k, ts.IsActions (ord k)) :
    ∀ (fuel : Nat) (s : State F) (p r : List (State F)), detHelper ts ord fuel s p = .ok (none, r) →
      Extends ts p r ∧ Covered r s := by
  intro fuel
  induction fuel with
  | zero => intro s p r h; cases h
  | succ n ih =>
    intro s p r h
    rw [detHelper] at h
    split at h
    · rename_i hc
      cases h
      exact ⟨.refl ts p, isContainedIn_iff.1 hc⟩
    · obtain ⟨e, h2⟩ := detActions_spec ih h
      have hs : s ∈ r := e.1 s (by simp)
      refine ⟨⟨fun q hq => e.1 q (by simp [hq]), fun q hq => ?_⟩, covered_of_mem hs⟩
      rcases e.2 q hq with hq' | hq'
      · rcases List.mem_append.1 hq' with hq' | hq'
        · exact .inl hq'
        · rw [List.mem_singleton] at hq'; subst hq'
          right
          intro a ha
          refine h2 a (((hord _).2 a).2 ?_)
          simpa [TS.hasAction] using ha
      · exact .inr hq'

/-- The locations of the passed states are locations of the system. -/
theorem detHelper_locs {s : Sys F} (hs : s.Good) {ord : Nat → List String} :
    ∀ (fuel : Nat) (st : State F) (p : List (State F)) (o : Option (DetFailure F)) (r : List (State F)),
      detHelper s.ts ord fuel st p = .ok (o, r) → s.IsLoc st.loc → (∀ q ∈ p, s.IsLoc q.loc) →
      (∀ k, ∀ a ∈ ord k, s.hasAction a = true) → ∀ q ∈ r, s.IsLoc q.loc := by
  intro fuel
  induction fuel with
  | zero => intro st p o r h; cases h
  | succ n ih =>
    intro st p o r h hst hp hord
    rw [detHelper] at h
    split at h
    · cases h; exact hp
    · have hp' : ∀ q ∈ p ++ [st], s.IsLoc q.loc := by
        intro q hq
        rcases List.mem_append.1 hq with hq | hq
        · exact hp q hq
        · rw [List.mem_singleton] at hq; subst hq; exact hst
      have key : ∀ (as : List String) (p' : List (State F)), (∀ q ∈ p', s.IsLoc q.loc) →
          (∀ a ∈ as, s.hasAction a = true) → ∀ o r,
          detActions (detHelper s.ts ord n) s.ts st as p' = .ok (o, r) → ∀ q ∈ r, s.IsLoc q.loc := by
        intro as
        induction as with
        | nil => intro p' hp' _ o r h; cases h; exact hp'
        | cons a as iha =>
          intro p' hp' has o r h
          rw [detActions] at h
          obtain ⟨trans, hn, h⟩ := bind_ok h
          obtain ⟨⟨o1, p1⟩, ht, h⟩ := bind_ok h
          have hloc : ∀ t ∈ trans, s.IsLoc t.target := by
            obtain ⟨ts, h1, h2⟩ := hs.next st.loc a hst (has a (by simp))
            have hn : s.next st.loc a = .ok trans := hn
            rw [h1] at hn; cases hn
            exact fun t ht => (h2 t ht).1
          have key2 : ∀ (tr : List (Transition F)) (fed : F) (p' : List (State F)),
              (∀ t ∈ tr, s.IsLoc t.target) → (∀ q ∈ p', s.IsLoc q.loc) → ∀ o r,
              detTransitions (detHelper s.ts ord n) s.ts st a tr fed p' = .ok (o, r) →
              ∀ q ∈ r, s.IsLoc q.loc := by
            intro tr
            induction tr with
            | nil => intro fed p' _ hp' o r h; cases h; exact hp'
            | cons t tl iht =>
              intro fed p' htl hp' o r h
              rw [detTransitions] at h
              cases hu : t.useTransition st with
              | mk b ns =>
                rw [hu] at h
                cases b with
                | false => exact iht _ _ (fun t ht => htl t (by simp [ht])) hp' _ _ h
                | true =>
                  dsimp only at h
                  split at h
                  · cases h; exact hp'
                  · obtain ⟨ns', hns, h⟩ := bind_ok h
                    obtain ⟨⟨o2, p2⟩, hvis, h⟩ := bind_ok h
                    have hl : ns'.loc = t.target := by
                      obtain ⟨b, _, he⟩ := bind_ok hns
                      cases he
                      unfold Transition.useTransition at hu
                      dsimp only at hu
                      split at hu
                      · split at hu
                        · cases hu; rfl
                        · cases hu
                      · cases hu
                    have hp2 := ih _ _ _ _ hvis (by rw [hl]; exact htl t (by simp)) hp' hord
                    cases o2 with
                    | some x => cases h; exact hp2
                    | none => exact iht _ _ (fun t ht => htl t (by simp [ht])) hp2 _ _ h
          have hp1 := key2 trans _ _ hloc hp' _ _ ht
          cases o1 with
          | some x => cases h; exact hp1
          | none => exact iha _ hp1 (fun a ha => has a (by simp [ha])) _ _ h
      exact key _ _ hp' (hord _) _ _ h

end Reveaal
