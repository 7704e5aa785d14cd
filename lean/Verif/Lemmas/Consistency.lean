import Verif.Spec.Consistency
import Verif.Lemmas.Determinism

/-! # What the consistency search has seen -/

namespace Reveaal
open ZoneLib
variable {F : Type} [ZoneLib F]

/-- The recursive calls of the search. -/
abbrev ConsVisit (F : Type) := State F → List (State F) → Res (Visit (ConsFailure F) F)

theorem usable_of_eq {s : State F} {t : Transition F} {ns : State F} (h : t.useTransition s = (true, ns)) :
    s.Usable t ∧ (t.useTransition s).2 = ns := ⟨by unfold State.Usable; rw [h], by rw [h]⟩

theorem not_usable_of_eq {s : State F} {t : Transition F} {ns : State F}
    (h : t.useTransition s = (false, ns)) : ¬ s.Usable t := by
  unfold State.Usable; rw [h]; simp

/-! ## Failures -/

section
variable {ts : TS F} {visit : ConsVisit F} {P : State F → Prop}

theorem consInputTransitions_fail (hv : ∀ s p x r, visit s p = .ok (some x, r) → ¬ P s) {s : State F} :
    ∀ {trans : List (Transition F)} {p r : List (State F)} {x : ConsFailure F},
    consInputTransitions visit ts s trans p = .ok (some x, r) →
    ∃ t ∈ trans, s.Usable t ∧ ∃ ns, (t.useTransition s).2.extrapolate ts = .ok ns ∧ ¬ P ns := by
  intro trans
  induction trans with
  | nil => intro p r x h; cases h
  | cons t tl ih =>
    intro p r x h
    rw [consInputTransitions] at h
    cases hu : t.useTransition s with
    | mk b ns =>
      rw [hu] at h
      cases b with
      | false =>
        obtain ⟨t', ht', h'⟩ := ih h
        exact ⟨t', by simp [ht'], h'⟩
      | true =>
        obtain ⟨ns', hns, h⟩ := bind_ok h
        obtain ⟨⟨o, p'⟩, hvis, h⟩ := bind_ok h
        cases o with
        | some y =>
          obtain ⟨h1, h2⟩ := usable_of_eq hu
          exact ⟨t, by simp, h1, ns', by rw [h2]; exact hns, hv _ _ _ _ hvis⟩
        | none =>
          obtain ⟨t', ht', h'⟩ := ih h
          exact ⟨t', by simp [ht'], h'⟩

theorem consInputs_fail (hv : ∀ s p x r, visit s p = .ok (some x, r) → ¬ P s) {s : State F} :
    ∀ {as : List String} {p r : List (State F)} {x : ConsFailure F},
    consInputs visit ts s as p = .ok (some x, r) → ∃ a ∈ as, ∃ ns, ts.SymStep s a ns ∧ ¬ P ns := by
  intro as
  induction as with
  | nil => intro p r x h; cases h
  | cons a as ih =>
    intro p r x h
    rw [consInputs] at h
    obtain ⟨trans, hn, h⟩ := bind_ok h
    obtain ⟨⟨o, p'⟩, ht, h⟩ := bind_ok h
    cases o with
    | some y =>
      obtain ⟨t, htm, hu, ns, hns, hP⟩ := consInputTransitions_fail hv ht
      exact ⟨a, by simp, ns, ⟨trans, hn, t, htm, hu, hns⟩, hP⟩
    | none =>
      obtain ⟨a', ha', h'⟩ := ih h
      exact ⟨a', by simp [ha'], h'⟩

theorem consOutputTransitions_fail (hv : ∀ s p x r, visit s p = .ok (some x, r) → ¬ P s) {s : State F} :
    ∀ {trans : List (Transition F)} {p r : List (State F)},
    consOutputTransitions visit ts s trans p = .ok (false, r) →
    ∀ t ∈ trans, s.Usable t → ∃ ns, (t.useTransition s).2.extrapolate ts = .ok ns ∧ ¬ P ns := by
  intro trans
  induction trans with
  | nil => intro p r h t ht; cases ht
  | cons t tl ih =>
    intro p r h t' ht' hus
    rw [consOutputTransitions] at h
    cases hu : t.useTransition s with
    | mk b ns =>
      rw [hu] at h
      cases b with
      | false =>
        rcases List.mem_cons.1 ht' with rfl | ht'
        · exact absurd hus (not_usable_of_eq hu)
        · exact ih h t' ht' hus
      | true =>
        obtain ⟨ns', hns, h⟩ := bind_ok h
        obtain ⟨⟨o, p'⟩, hvis, h⟩ := bind_ok h
        cases o with
        | none => cases h
        | some y =>
          rcases List.mem_cons.1 ht' with rfl | ht'
          · rw [(usable_of_eq hu).2]
            exact ⟨ns', hns, hv _ _ _ _ hvis⟩
          · exact ih h t' ht' hus

theorem consOutputs_fail (hv : ∀ s p x r, visit s p = .ok (some x, r) → ¬ P s) {s : State F} :
    ∀ {as : List String} {p r : List (State F)}, consOutputs visit ts s as p = .ok (false, r) →
    ∀ a ∈ as, ∀ ns, ts.SymStep s a ns → ¬ P ns := by
  intro as
  induction as with
  | nil => intro p r h a ha; cases ha
  | cons a as ih =>
    intro p r h a' ha' ns hns
    rw [consOutputs] at h
    obtain ⟨trans, hn, h⟩ := bind_ok h
    obtain ⟨⟨o, p'⟩, ht, h⟩ := bind_ok h
    cases o with
    | true => cases h
    | false =>
      rcases List.mem_cons.1 ha' with rfl | ha'
      · obtain ⟨tr, hn', t, htm, hu, he⟩ := hns
        rw [hn] at hn'; cases hn'
        obtain ⟨ns', he', hP⟩ := consOutputTransitions_fail hv ht t htm hu
        rw [he] at he'; cases he'
        exact hP
      · exact ih h a' ha' ns hns

theorem consHelper_fail {ordI ordO : Nat → List String} (hI : ∀ k a, a ∈ ordI k → a ∈ ts.inputs)
    (hO : ∀ k, ∀ a ∈ ts.outputs, a ∈ ordO k) (hP : SymConsistent ts P) :
    ∀ (fuel : Nat) (s : State F) (p : List (State F)) (x : ConsFailure F) (r : List (State F)),
      consHelper ts ordI ordO fuel s p = .ok (some x, r) → ¬ P s := by
  intro fuel
  induction fuel with
  | zero => intro s p x r h; cases h
  | succ n ih =>
    intro s p x r h hs
    rw [consHelper] at h
    split at h
    · cases h
    split at h
    · cases h
    rename_i hun
    split at h
    · rename_i hin
      rw [hP.safe hs] at hin; cases hin
    have hun : s.loc.isUniversal = false := by simpa using hun
    obtain ⟨⟨o, p'⟩, hin, h⟩ := bind_ok h
    cases o with
    | some y =>
      obtain ⟨a, ha, ns, hst, hn⟩ := consInputs_fail ih hin
      exact hn (hP.input hs hun (hI _ _ ha) hst)
    | none =>
      dsimp only at h
      split at h
      · cases h
      rename_i hd
      obtain ⟨⟨b, p''⟩, hout, h⟩ := bind_ok h
      cases b with
      | true => cases h
      | false =>
        rcases hP.progress hs hun with hw | ⟨o, ho, ns, hst, hns⟩
        · exact hd ((canDelay_iff _).2 hw)
        · exact consOutputs_fail ih hout o (hO _ o ho) ns hst hns

end

/-! ## Successes -/

/-- At the universal location, or covered by a list. -/
def CoveredU (P : List (State F)) (s : State F) : Prop := s.loc.isUniversal = true ∨ Covered P s

theorem CoveredU.mono {P Q : List (State F)} (h : ∀ s ∈ P, s ∈ Q) {s : State F} (hc : CoveredU P s) :
    CoveredU Q s := hc.imp id (·.mono h)

/-- The state has passed all tests of the search, with the successors covered by `P`. -/
structure ConsProcessed (ts : TS F) (P : List (State F)) (s : State F) : Prop where
  reach : ts.SymReach s
  safe : s.loc.isInconsistent = false
  input : ∀ i ∈ ts.inputs, ∃ trans, ts.next s.loc i = .ok trans ∧ ∀ t ∈ trans, s.Usable t →
    ∃ ns, (t.useTransition s).2.extrapolate ts = .ok ns ∧ CoveredU P ns
  progress : canDelayIndefinitely s.zone = true ∨ ∃ o ∈ ts.outputs, ∃ trans, ts.next s.loc o = .ok trans ∧
    ∃ t ∈ trans, s.Usable t ∧ ∃ ns, (t.useTransition s).2.extrapolate ts = .ok ns ∧ CoveredU P ns

theorem ConsProcessed.mono {ts : TS F} {P Q : List (State F)} (h : ∀ s ∈ P, s ∈ Q) {s : State F}
    (hc : ConsProcessed ts P s) : ConsProcessed ts Q s :=
  ⟨hc.reach, hc.safe, fun i hi => let ⟨tr, h1, h2⟩ := hc.input i hi
    ⟨tr, h1, fun t ht hu => let ⟨ns, h3, h4⟩ := h2 t ht hu; ⟨ns, h3, h4.mono h⟩⟩,
   hc.progress.imp id fun ⟨o, ho, tr, h1, t, ht, hu, ns, h3, h4⟩ =>
    ⟨o, ho, tr, h1, t, ht, hu, ns, h3, h4.mono h⟩⟩

/-- From the list `p` the search went on to `r`, and everything new in `r` was processed. -/
def ConsExtends (ts : TS F) (p r : List (State F)) : Prop :=
  (∀ q ∈ p, q ∈ r) ∧ ∀ q ∈ r, q ∈ p ∨ ConsProcessed ts r q

theorem ConsExtends.refl (ts : TS F) (p : List (State F)) : ConsExtends ts p p :=
  ⟨fun _ h => h, fun _ h => .inl h⟩

theorem ConsExtends.trans {ts : TS F} {p q r : List (State F)} (h1 : ConsExtends ts p q)
    (h2 : ConsExtends ts q r) : ConsExtends ts p r :=
  ⟨fun x hx => h2.1 x (h1.1 x hx), fun x hx => (h2.2 x hx).elim
    (fun hq => (h1.2 x hq).imp id fun h => h.mono h2.1) .inr⟩

section
variable {ts : TS F} {visit : ConsVisit F}

/-- What is known of a recursive call from a state the search can get to. -/
def GoodVisit (ts : TS F) (visit : ConsVisit F) : Prop :=
  ∀ s p r, ts.SymReach s → visit s p = .ok (none, r) → ConsExtends ts p r ∧ CoveredU r s

theorem consInputTransitions_spec (hv : GoodVisit ts visit) {s : State F} (hs : ts.SymReach s)
    {a : String} (ha : a ∈ ts.inputs ∨ a ∈ ts.outputs) {all : List (Transition F)} (hn : ts.next s.loc a = .ok all) :
    ∀ {trans : List (Transition F)}, (∀ t ∈ trans, t ∈ all) → ∀ {p r : List (State F)},
    consInputTransitions visit ts s trans p = .ok (none, r) →
    ConsExtends ts p r ∧ ∀ t ∈ trans, s.Usable t →
      ∃ ns, (t.useTransition s).2.extrapolate ts = .ok ns ∧ CoveredU r ns := by
  intro trans
  induction trans with
  | nil =>
    intro _ p r h
    cases h
    exact ⟨.refl ts p, by simp⟩
  | cons t tl ih =>
    intro hsub p r h
    rw [consInputTransitions] at h
    have hsub' : ∀ t' ∈ tl, t' ∈ all := fun t' h => hsub t' (by simp [h])
    cases hu : t.useTransition s with
    | mk b ns =>
      rw [hu] at h
      cases b with
      | false =>
        obtain ⟨h1, h2⟩ := ih hsub' h
        refine ⟨h1, fun t' ht' hus => ?_⟩
        rcases List.mem_cons.1 ht' with rfl | ht'
        · exact absurd hus (not_usable_of_eq hu)
        · exact h2 t' ht' hus
      | true =>
        obtain ⟨ns', hns, h⟩ := bind_ok h
        obtain ⟨⟨o, p'⟩, hvis, h⟩ := bind_ok h
        cases o with
        | some y => cases h
        | none =>
          obtain ⟨hu1, hu2⟩ := usable_of_eq hu
          have hns' : (t.useTransition s).2.extrapolate ts = .ok ns' := by rw [hu2]; exact hns
          obtain ⟨e1, c1⟩ := hv _ _ _ (.step hs ha ⟨all, hn, t, hsub t (by simp), hu1, hns'⟩) hvis
          obtain ⟨h1, h2⟩ := ih hsub' h
          refine ⟨e1.trans h1, fun t' ht' hus => ?_⟩
          rcases List.mem_cons.1 ht' with rfl | ht'
          · exact ⟨ns', hns', c1.mono h1.1⟩
          · exact h2 t' ht' hus

theorem consInputs_spec (hv : GoodVisit ts visit) {s : State F} (hs : ts.SymReach s) :
    ∀ {as : List String} {p r : List (State F)}, (∀ a ∈ as, a ∈ ts.inputs) →
    consInputs visit ts s as p = .ok (none, r) →
    ConsExtends ts p r ∧ ∀ a ∈ as, ∃ trans, ts.next s.loc a = .ok trans ∧ ∀ t ∈ trans, s.Usable t →
      ∃ ns, (t.useTransition s).2.extrapolate ts = .ok ns ∧ CoveredU r ns := by
  intro as
  induction as with
  | nil =>
    intro p r _ h
    cases h
    exact ⟨.refl ts p, by simp⟩
  | cons a as ih =>
    intro p r hin h
    rw [consInputs] at h
    obtain ⟨trans, hn, h⟩ := bind_ok h
    obtain ⟨⟨o, p'⟩, ht, h⟩ := bind_ok h
    cases o with
    | some y => cases h
    | none =>
      obtain ⟨e1, c1⟩ := consInputTransitions_spec hv hs (.inl (hin a (by simp))) hn (fun _ h => h) ht
      obtain ⟨e2, c2⟩ := ih (fun a' ha' => hin a' (by simp [ha'])) h
      refine ⟨e1.trans e2, fun a' ha' => ?_⟩
      rcases List.mem_cons.1 ha' with rfl | ha'
      · exact ⟨trans, hn, fun t ht hu => let ⟨ns, h3, h4⟩ := c1 t ht hu; ⟨ns, h3, h4.mono e2.1⟩⟩
      · exact c2 a' ha'

/-- No transition can be taken: nothing happens. -/
theorem consOutputTransitions_none {s : State F} : ∀ {trans : List (Transition F)} {p : List (State F)},
    (∀ t ∈ trans, ¬ s.Usable t) → consOutputTransitions visit ts s trans p = .ok (false, p) := by
  intro trans
  induction trans with
  | nil => intro p _; rfl
  | cons t tl ih =>
    intro p h
    rw [consOutputTransitions]
    cases hu : t.useTransition s with
    | mk b ns =>
      cases b with
      | false => exact ih fun t' ht' => h t' (by simp [ht'])
      | true => exact absurd (usable_of_eq hu).1 (h t (by simp))

theorem consOutputs_none {s : State F} : ∀ {as : List String} {p : List (State F)}
    {b : Bool} {r : List (State F)},
    (∀ a ∈ as, ∀ trans, ts.next s.loc a = .ok trans → ∀ t ∈ trans, ¬ s.Usable t) →
    consOutputs visit ts s as p = .ok (b, r) → b = false := by
  intro as
  induction as with
  | nil => intro p b r _ h; cases h; rfl
  | cons a as ih =>
    intro p b r hn h
    rw [consOutputs] at h
    obtain ⟨trans, hnx, h⟩ := bind_ok h
    rw [consOutputTransitions_none (hn a (by simp) trans hnx), ok_bind] at h
    exact ih (fun a' ha' => hn a' (by simp [ha'])) h

theorem consOutputTransitions_one {s : State F} : ∀ {trans : List (Transition F)} {p : List (State F)}
    {b : Bool} {r : List (State F)},
    trans.Pairwise (fun t t' => ¬ (s.Usable t ∧ s.Usable t')) →
    consOutputTransitions visit ts s trans p = .ok (b, r) →
    (b = false ∧ r = p ∧ ∀ t ∈ trans, ¬ s.Usable t) ∨ ∃ t ∈ trans, s.Usable t ∧ (b = true →
      ∃ ns, (t.useTransition s).2.extrapolate ts = .ok ns ∧ visit ns p = .ok (none, r)) := by
  intro trans
  induction trans with
  | nil => intro p b r _ h; cases h; simp
  | cons t tl ih =>
    intro p b r hp h
    rw [consOutputTransitions] at h
    rw [List.pairwise_cons] at hp
    cases hu : t.useTransition s with
    | mk b' ns =>
      rw [hu] at h
      cases b' with
      | false =>
        rcases ih hp.2 h with ⟨h1, h2, h3⟩ | ⟨t', ht', h'⟩
        · refine .inl ⟨h1, h2, fun t' ht' => ?_⟩
          rcases List.mem_cons.1 ht' with rfl | ht'
          · exact not_usable_of_eq hu
          · exact h3 t' ht'
        · exact .inr ⟨t', by simp [ht'], h'⟩
      | true =>
        obtain ⟨hu1, hu2⟩ := usable_of_eq hu
        refine .inr ⟨t, by simp, hu1, fun hb => ?_⟩
        obtain ⟨ns', hns, h⟩ := bind_ok h
        obtain ⟨⟨o, p'⟩, hvis, h⟩ := bind_ok h
        rw [hu2]
        refine ⟨ns', hns, ?_⟩
        cases o with
        | none => cases h; exact hvis
        | some y =>
          dsimp only at h
          rw [consOutputTransitions_none fun t' ht' hu' => hp.1 t' ht' ⟨hu1, hu'⟩] at h
          cases h; cases hb

theorem consOutputs_one {s : State F} : ∀ {as : List String} {p r : List (State F)},
    as.Nodup →
    (∀ o ∈ as, ∀ trans, ts.next s.loc o = .ok trans →
      trans.Pairwise fun t t' => ¬ (s.Usable t ∧ s.Usable t')) →
    (∀ o ∈ as, ∀ o' ∈ as, o ≠ o' → ∀ trans trans', ts.next s.loc o = .ok trans →
      ts.next s.loc o' = .ok trans' → ∀ t ∈ trans, ∀ t' ∈ trans', ¬ (s.Usable t ∧ s.Usable t')) →
    consOutputs visit ts s as p = .ok (true, r) →
    ∃ a ∈ as, ∃ trans, ts.next s.loc a = .ok trans ∧ ∃ t ∈ trans, s.Usable t ∧
      ∃ ns, (t.useTransition s).2.extrapolate ts = .ok ns ∧ visit ns p = .ok (none, r) := by
  intro as
  induction as with
  | nil => intro p r _ _ _ h; cases h
  | cons a as ih =>
    intro p r hnd h1 h2 h
    rw [consOutputs] at h
    obtain ⟨trans, hn, h⟩ := bind_ok h
    obtain ⟨⟨b, p'⟩, ht, h3⟩ := bind_ok h
    clear h
    rw [List.nodup_cons] at hnd
    rcases consOutputTransitions_one (h1 a (by simp) trans hn) ht with ⟨hb, hp, _⟩ | ⟨t, htm, hu, hb⟩
    · subst hb hp
      obtain ⟨a', ha', h'⟩ := ih hnd.2 (fun o ho => h1 o (by simp [ho]))
        (fun o ho o' ho' => h2 o (by simp [ho]) o' (by simp [ho'])) h3
      exact ⟨a', by simp [ha'], h'⟩
    · cases b with
      | true =>
        cases h3
        obtain ⟨ns, h3, h4⟩ := hb rfl
        exact ⟨a, by simp, trans, hn, t, htm, hu, ns, h3, h4⟩
      | false =>
        have := consOutputs_none (visit := visit) (fun a' ha' tr' hn' t' ht' hu' =>
          h2 a (by simp) a' (by simp [ha']) (fun e => hnd.1 (e ▸ ha')) trans tr' hn hn' t htm t' ht'
            ⟨hu, hu'⟩) h3
        cases this

theorem consHelper_spec {ordI ordO : Nat → List String} (hI : ∀ k a, a ∈ ordI k ↔ a ∈ ts.inputs)
    (hO : ∀ k, (ordO k).Nodup ∧ ∀ a ∈ ordO k, a ∈ ts.outputs) (hone : ts.OneOutput) :
    ∀ (fuel : Nat), GoodVisit ts (consHelper ts ordI ordO fuel) := by
  intro fuel
  induction fuel with
  | zero => intro s p r _ h; cases h
  | succ n ih =>
    intro s p r hs h
    rw [consHelper] at h
    split at h
    · rename_i hc
      cases h
      exact ⟨.refl ts p, .inr (isContainedIn_iff.1 hc)⟩
    split at h
    · rename_i hun
      cases h
      exact ⟨.refl ts p, .inl hun⟩
    split at h
    · cases h
    rename_i hinc
    obtain ⟨⟨o, p'⟩, hin, h⟩ := bind_ok h
    cases o with
    | some y => cases h
    | none =>
      obtain ⟨e1, c1⟩ := consInputs_spec ih hs (fun a ha => (hI _ a).1 ha) hin
      have hmem : s ∈ p' := e1.1 s (by simp)
      have finish : ∀ r, ConsExtends ts p' r → ConsProcessed ts r s →
          ConsExtends ts p r ∧ CoveredU r s := by
        intro r e2 hpr
        have e := e1.trans e2
        refine ⟨⟨fun q hq => e.1 q (by simp [hq]), fun q hq => ?_⟩, .inr (covered_of_mem (e2.1 s hmem))⟩
        rcases e.2 q hq with h' | h'
        · rcases List.mem_append.1 h' with h' | h'
          · exact .inl h'
          · rw [List.mem_singleton.1 h']; exact .inr hpr
        · exact .inr h'
      have hinp : ∀ r, ConsExtends ts p' r → ∀ i ∈ ts.inputs, ∃ trans, ts.next s.loc i = .ok trans ∧
          ∀ t ∈ trans, s.Usable t →
            ∃ ns, (t.useTransition s).2.extrapolate ts = .ok ns ∧ CoveredU r ns := by
        intro r e2 i hi
        obtain ⟨tr, h1, h2⟩ := c1 i ((hI _ i).2 hi)
        exact ⟨tr, h1, fun t ht hu => let ⟨ns, h3, h4⟩ := h2 t ht hu; ⟨ns, h3, h4.mono e2.1⟩⟩
      have hinc : s.loc.isInconsistent = false := by simpa using hinc
      dsimp only at h
      split at h
      · rename_i hd
        cases h
        exact finish _ (.refl ts _) ⟨hs, hinc, hinp _ (.refl ts _), .inl hd⟩
      · rename_i hd
        obtain ⟨⟨b, p''⟩, hout, h⟩ := bind_ok h
        cases b with
        | false => cases h
        | true =>
          cases h
          obtain ⟨one1, one2⟩ := hone s hs (by simpa using hd)
          obtain ⟨hnd, hOs⟩ := hO p.length
          obtain ⟨a, ha, trans, hn, t, ht, hu, ns, hns, hvis⟩ := consOutputs_one hnd
            (fun o ho => one1 o (hOs o ho)) (fun o ho o' ho' => one2 o (hOs o ho) o' (hOs o' ho')) hout
          obtain ⟨e2, c2⟩ := ih _ _ _ (.step hs (.inr (hOs a ha)) ⟨trans, hn, t, ht, hu, hns⟩) hvis
          exact finish _ e2 ⟨hs, hinc, hinp _ e2, .inr ⟨a, hOs a ha, trans, hn, t, ht, hu, ns, hns, c2⟩⟩

end
end Reveaal
