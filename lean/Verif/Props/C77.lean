import Verif.Lemmas.Print
import Verif.Props.C76

/-!
# C77 What the command line prints tells the verdict, the cause of a failure and the path
-/

namespace Reveaal
open Text ZoneLib

/-! ## Every result can be printed -/

section
variable {F : Type} [ZoneLib F]

theorem specificLocation_text : ∀ {l : LocId} {infos : InfoTree} {x : SpecificLoc}, specificLocation l infos = .ok x →
    ∃ t, x.text = .ok t := by
  intro l
  induction l with
  | conjunction a b iha ihb | composition a b iha ihb | quotient a b iha ihb =>
    intro infos x h
    obtain ⟨⟨i, j⟩, _, h⟩ := bind_ok h
    obtain ⟨y, h1, h⟩ := bind_ok h
    obtain ⟨z, h2, h⟩ := bind_ok h
    cases h
    obtain ⟨t, ht⟩ := iha h1
    obtain ⟨u, hu⟩ := ihb h2
    simp only [SpecificLoc.text, ht, hu, ok_bind, SysType.operator]
    exact ⟨_, rfl⟩
  | simple n =>
    intro infos x h
    obtain ⟨i, _, h⟩ := bind_ok h
    cases h
    exact ⟨_, rfl⟩
  | special k => intro infos x h; cases h; exact ⟨_, rfl⟩
  | any => intro infos x h; cases h

theorem ofState_text {ord : List (String × Nat) → List (String × Nat)} {s : Sys F} {st : State F} {x : SpecificState}
    (h : SpecificState.ofState ord s st = .ok x) : ∃ t, x.text = .ok t := by
  obtain ⟨l, h1, h⟩ := bind_ok h
  cases h
  obtain ⟨t, ht⟩ := specificLocation_text h1
  simp only [SpecificState.text, ht, ok_bind]
  exact ⟨_, rfl⟩

theorem ofPair_text {ord ord' : List (String × Nat) → List (String × Nat)} {s s' : Sys F} {p : StatePair F} {x : SpecificState}
    (h : SpecificState.ofPair ord ord' s s' p = .ok x) : ∃ t, x.text = .ok t := by
  obtain ⟨l, h1, h⟩ := bind_ok h
  obtain ⟨r, h2, h⟩ := bind_ok h
  cases h
  obtain ⟨t, ht⟩ := specificLocation_text h1
  obtain ⟨u, hu⟩ := specificLocation_text h2
  simp only [SpecificState.text, SpecificLoc.text, ht, hu, ok_bind, SysType.operator]
  exact ⟨_, rfl⟩

theorem detReport_text {ord : List (String × Nat) → List (String × Nat)} {s : Sys F} {f : DetFailure F} {x : DetReport}
    (h : f.report ord s = .ok x) : ∃ t, x.text = .ok t := by
  obtain ⟨y, h1, h⟩ := bind_ok h
  cases h
  obtain ⟨t, ht⟩ := ofState_text h1
  simp only [DetReport.text, ht, ok_bind]
  exact ⟨_, rfl⟩

theorem consReport_text {ord : List (String × Nat) → List (String × Nat)} {s : Sys F} {f : ConsFailure F} {x : ConsReport}
    (h : f.report ord s = .ok x) : ∃ t, x.text = .ok t := by
  cases f with
  | noInitialState => cases h; exact ⟨_, rfl⟩
  | notDeterministic f =>
    obtain ⟨y, h1, h⟩ := bind_ok h
    cases h
    exact detReport_text h1
  | inconsistent st | inconsistentFrom st =>
    obtain ⟨y, h1, h⟩ := bind_ok h
    cases h
    obtain ⟨t, ht⟩ := ofState_text h1
    simp only [ConsReport.text, ht, ok_bind]
    exact ⟨_, rfl⟩

theorem describe_text {ord ord' : List (String × Nat) → List (String × Nat)} {s t : Sys F} {f : RefFailure F}
    {x : RefinementReport} (h : f.describe ord ord' s t = .ok x) (esc : Char → Chars) (acts : List String → List String) :
    ∃ p, x.text esc acts = .ok p := by
  unfold RefFailure.describe at h
  split at h
  · cases h; exact ⟨_, rfl⟩
  · cases h; exact ⟨_, rfl⟩
  · split at h
    · rename_i y hy
      obtain ⟨z, rfl, h⟩ := bind_ok h
      cases h
      have : ∃ u, z.state.text = .ok u := by
        cases f <;> simp only [RefFailure.report, reduceCtorEq] at hy
        all_goals
          have hy := Option.some.inj hy
          obtain ⟨w, h1, h2⟩ := bind_ok hy
          cases h2
          exact ofPair_text h1
      obtain ⟨u, hu⟩ := this
      simp only [RefinementReport.text, hu, ok_bind]
      exact ⟨_, rfl⟩
    · cases h

theorem refinementReport_text {ord ord' : List (String × Nat) → List (String × Nat)} {s t : Sys F}
    {checks checks' : List Bool → Orders} {outs ins : List String} {fuel : Nat} {x : RefinementReport}
    (h : refinementReport ord ord' s t checks checks' outs ins fuel = .ok (some x)) (esc : Char → Chars)
    (acts : List String → List String) : ∃ p, x.text esc acts = .ok p := by
  have cons : ∀ {ord : List (String × Nat) → List (String × Nat)} {q : Sys F} {f : ConsFailure F} {y : ConsReport} {n : String},
      f.report ord q = .ok y → ∃ p, (RefinementReport.inconsistentChild y n).text esc acts = .ok p := by
    intro ord q f y n hy
    obtain ⟨u, hu⟩ := consReport_text hy
    simp only [RefinementReport.text, hu, ok_bind]
    exact ⟨_, rfl⟩
  unfold refinementReport at h
  obtain ⟨o1, _, h⟩ := bind_ok h
  cases o1 with
  | some g =>
    obtain ⟨y, h1, h⟩ := bind_ok h
    cases h
    exact cons h1
  | none =>
    obtain ⟨o2, _, h⟩ := bind_ok h
    cases o2 with
    | some g =>
      obtain ⟨y, h1, h⟩ := bind_ok h
      cases h
      exact cons h1
    | none =>
      dsimp only at h
      split at h
      · obtain ⟨y, _, h⟩ := bind_ok h
        cases h
        exact ⟨_, rfl⟩
      · obtain ⟨o3, _, h⟩ := bind_ok h
        cases o3 with
        | none => cases h
        | some f =>
          obtain ⟨y, h1, h⟩ := bind_ok h
          cases h
          exact describe_text h1 esc acts

theorem findSpecificPath_text {zoneBounds : F → Bounds} {ord : List (String × Nat) → List (String × Nat)} {s : Sys F}
    {start goal : State F} {fuel : Nat} {xs : List SpecificDecision}
    (h : findSpecificPath zoneBounds ord s start goal fuel = .ok (some xs)) : ∃ t, pathText xs = .ok t := by
  unfold findSpecificPath at h
  obtain ⟨o, _, h⟩ := bind_ok h
  cases o with
  | none => cases h
  | some ds =>
    obtain ⟨ys, h1, h⟩ := bind_ok h
    cases h
    have : ∃ ts, xs.mapM SpecificDecision.text = .ok ts := by
      refine mapM_total fun x hx => ?_
      obtain ⟨d, _, hd⟩ := forall2_mem_right (mapM_ok.1 h1) x hx
      unfold SpecificDecision.ofDecision at hd
      split at hd
      all_goals
        obtain ⟨es, _, hd⟩ := bind_ok hd
        obtain ⟨a, h2, hd⟩ := bind_ok hd
        obtain ⟨b, _, hd⟩ := bind_ok hd
        cases hd
        obtain ⟨u, hu⟩ := ofState_text h2
        simp only [SpecificDecision.text, hu, ok_bind]
        exact ⟨_, rfl⟩
    obtain ⟨ts, hts⟩ := this
    simp only [pathText, hts, ok_bind]
    exact ⟨_, rfl⟩

end

section
variable {Z : Nat → Type} [∀ d, ZoneLib (Z d)]

/-- **C77 (total).** A result is of the kind the query asks for, and it can be printed: no state is described with an operator
that has no text. -/
theorem C77_total (X : QueryEnv Z) (E : ReportEnv) (load : String → Res Component) (q : QueryExpr) (x : QueryReport)
    (h : X.result E load q = .ok x) (esc : Char → Chars) (ord : List String → List String) (query : Chars) :
    x.Answers q ∧ ∃ p, x.text esc ord query = .ok p := by
  cases q with
  | refinement e e' =>
    unfold QueryEnv.result at h
    dsimp only at h
    unfold QueryEnv.refinementResult at h
    obtain ⟨⟨l, d, q⟩, _, h⟩ := bind_ok h
    obtain ⟨⟨r, d, q⟩, _, h⟩ := bind_ok h
    obtain ⟨⟨l', r', d'⟩, _, h⟩ := bind_ok h
    obtain ⟨⟨s, i⟩, _, h⟩ := bind_ok h
    obtain ⟨⟨t, j⟩, _, h⟩ := bind_ok h
    obtain ⟨y, h6, h⟩ := bind_ok h
    cases h
    refine ⟨⟨_, rfl⟩, ?_⟩
    cases y with
    | none => exact ⟨_, rfl⟩
    | some f =>
      obtain ⟨p, hp⟩ := refinementReport_text h6 esc ord
      simp only [QueryReport.text, hp, ok_bind]
      exact ⟨_, rfl⟩
  | reachability e start goal =>
    obtain ⟨⟨r, d, q⟩, _, h⟩ := bind_ok h
    obtain ⟨⟨s, st, en⟩, _, h⟩ := bind_ok h
    obtain ⟨y, h3, h⟩ := bind_ok h
    cases h
    refine ⟨⟨_, rfl⟩, ?_⟩
    cases y with
    | none => exact ⟨_, rfl⟩
    | some xs =>
      obtain ⟨p, hp⟩ := findSpecificPath_text h3
      simp only [QueryReport.text, hp, ok_bind]
      exact ⟨_, rfl⟩
  | consistency e =>
    obtain ⟨⟨d, s⟩, _, h⟩ := bind_ok h
    obtain ⟨y, _, h⟩ := bind_ok h
    cases y with
    | none => cases h; exact ⟨⟨_, rfl⟩, _, rfl⟩
    | some f => obtain ⟨f', _, h⟩ := bind_ok h; cases h; exact ⟨⟨_, rfl⟩, _, rfl⟩
  | determinism e =>
    obtain ⟨⟨d, s⟩, _, h⟩ := bind_ok h
    obtain ⟨y, _, h⟩ := bind_ok h
    cases y with
    | none => cases h; exact ⟨⟨_, rfl⟩, _, rfl⟩
    | some f => obtain ⟨f', _, h⟩ := bind_ok h; cases h; exact ⟨⟨_, rfl⟩, _, rfl⟩
  | getComponent e | prune e =>
    obtain ⟨s, _, h⟩ := bind_ok h
    obtain ⟨c, _, h⟩ := bind_ok h
    cases h
    exact ⟨⟨_, rfl⟩, _, rfl⟩
  | implementation e => cases h
  | specification e => cases h
  | bisimMinim e => cases h

/-! ## The verdict -/

/-- The three lines a result can begin with. -/
inductive VerdictLine (query : Chars) : Printed → Chars → Prop
  | satisfied {r : Chars} : VerdictLine query .satisfied (query ++ (" -- Property is satisfied\n".toList ++ r))
  | notSatisfied {r : Chars} : VerdictLine query .notSatisfied (query ++ (" -- Property is NOT satisfied\n".toList ++ r))
  | created {r : Chars} : VerdictLine query .created (query ++ (" -- Component succesfully created\n".toList ++ r))

theorem verdictLine {x : QueryReport} {esc : Char → Chars} {ord : List String → List String} {query p : Chars}
    (h : x.text esc ord query = .ok p) : VerdictLine query x.printed p := by
  cases x with
  | refinement o =>
    cases o with
    | none => cases h; rw [satisfiedText, ← List.append_nil (" -- Property is satisfied\n".toList)]; exact .satisfied
    | some f =>
      obtain ⟨t, _, h⟩ := bind_ok h
      cases h
      rw [notSatisfiedText, List.append_assoc]
      exact .notSatisfied
  | reachability o =>
    cases o with
    | none => cases h; rw [notSatisfiedText, ← List.append_nil (" -- Property is NOT satisfied\n".toList)]; exact .notSatisfied
    | some f =>
      obtain ⟨t, _, h⟩ := bind_ok h
      cases h
      rw [satisfiedText, List.append_assoc]
      exact .satisfied
  | consistency o | determinism o =>
    cases o with
    | none => cases h; rw [satisfiedText, ← List.append_nil (" -- Property is satisfied\n".toList)]; exact .satisfied
    | some f => cases h; rw [notSatisfiedText, ← List.append_nil (" -- Property is NOT satisfied\n".toList)]; exact .notSatisfied
  | getComponent c =>
    cases h
    rw [← List.append_nil (" -- Component succesfully created\n".toList)]
    exact .created

theorem verdictLine_unique {query p : Chars} {k k' : Printed} (h : VerdictLine query k p) (h' : VerdictLine query k' p) :
    k = k' := by
  have key : ∀ {p p' : Chars}, VerdictLine query k p → VerdictLine query k' p' → p = p' → k = k' := by
    intro p p' h h' e
    cases h <;> cases h' <;> first | rfl | skip
    all_goals
      rw [List.append_cancel_left_eq] at e
      exact absurd e (clash 18 (by decide +kernel) (by decide +kernel) (by decide +kernel))
  exact key h h' rfl

/-- **C77 (verdict).** What is printed for a query begins with the query; after it `Property is satisfied` stands exactly if
the answer is yes, `Component succesfully created` exactly if a component was made, and otherwise `Property is NOT
satisfied`. -/
theorem C77_verdict (X : QueryEnv Z) (E : ReportEnv) (load : String → Res Component) (q : QueryExpr) (x : QueryReport)
    (h : X.result E load q = .ok x) (esc : Char → Chars) (ord : List String → List String) (p : Chars)
    (hp : x.text esc ord q.print = .ok p) : ∃ A, X.run load q = .ok A ∧
      ((∃ r, p = q.print ++ (" -- Property is satisfied\n".toList ++ r)) ↔ A.Yes) ∧
      ((∃ r, p = q.print ++ (" -- Component succesfully created\n".toList ++ r)) ↔ ∃ c, A = .getComponent c) ∧
      ((∃ r, p = q.print ++ (" -- Property is NOT satisfied\n".toList ++ r)) ↔ ¬ A.Yes ∧ ¬ ∃ c, A = .getComponent c) := by
  obtain ⟨A, h1, h2, h3, _⟩ := C76_verdict X E load q x h
  have hv := verdictLine hp
  have key : ∀ {k : Printed} {line : Chars}, (∀ r, VerdictLine q.print k (q.print ++ (line ++ r))) →
      (∀ p, VerdictLine q.print k p → ∃ r, p = q.print ++ (line ++ r)) →
      ((∃ r, p = q.print ++ (line ++ r)) ↔ x.printed = k) := by
    intro k line hk hk'
    constructor
    · rintro ⟨r, rfl⟩
      exact verdictLine_unique hv (hk r)
    · rintro rfl
      exact hk' p hv
  refine ⟨A, h1, ?_, ?_, ?_⟩
  · rw [key (k := .satisfied) (fun r => .satisfied) (by rintro _ ⟨⟩; exact ⟨_, rfl⟩), h2]
  · rw [key (k := .created) (fun r => .created) (by rintro _ ⟨⟩; exact ⟨_, rfl⟩), h3]
  · rw [key (k := .notSatisfied) (fun r => .notSatisfied) (by rintro _ ⟨⟩; exact ⟨_, rfl⟩), ← h2, ← h3]
    cases x.printed <;> simp

end

/-! ## What can be read off the output of a run -/

/-- The text does not begin like the line of a step. -/
def NoStep (r : Chars) : Prop := ∀ (w rest : Chars), (∀ c ∈ w, isWord c = true) → r ≠ w ++ ' ' :: rest

theorem noStep_nil : NoStep [] := by
  intro w rest _ h
  cases w <;> cases h

theorem head_lit {lit kw m u : Chars} {c : Char} (h1 : ∀ x ∈ kw, isWord x = true) (h2 : isWord c = false) (h3 : c ≠ ' ')
    (h : lit = kw ++ c :: m) : ∃ kw c rest, (∀ x ∈ kw, isWord x = true) ∧ isWord c = false ∧ c ≠ ' ' ∧
    lit ++ u = kw ++ c :: rest :=
  ⟨kw, c, m ++ u, h1, h2, h3, by rw [h, List.append_assoc, List.cons_append]⟩

theorem print_head (q : QueryExpr) : ∃ kw c rest, (∀ x ∈ kw, isWord x = true) ∧ isWord c = false ∧ c ≠ ' ' ∧
    q.print = kw ++ c :: rest := by
  cases q
  all_goals unfold QueryExpr.print; dsimp only
  · exact head_lit (kw := "refinement".toList) (c := ':') (m := []) (by decide +kernel) (by decide) (by decide) (by decide +kernel)
  · exact head_lit (kw := "consistency".toList) (c := ':') (m := []) (by decide +kernel) (by decide) (by decide) (by decide +kernel)
  · exact head_lit (kw := "reachability".toList) (c := ':') (m := []) (by decide +kernel) (by decide) (by decide) (by decide +kernel)
  · exact head_lit (kw := "implementation".toList) (c := ':') (m := []) (by decide +kernel) (by decide) (by decide) (by decide +kernel)
  · exact head_lit (kw := "determinism".toList) (c := ':') (m := []) (by decide +kernel) (by decide) (by decide) (by decide +kernel)
  · exact head_lit (kw := "specification".toList) (c := ':') (m := []) (by decide +kernel) (by decide) (by decide) (by decide +kernel)
  · exact head_lit (kw := "get".toList) (c := '-') (m := "component:".toList) (by decide +kernel) (by decide) (by decide) (by decide +kernel)
  · exact head_lit (kw := "prune".toList) (c := ':') (m := []) (by decide +kernel) (by decide) (by decide) (by decide +kernel)
  · exact head_lit (kw := "bisim".toList) (c := '-') (m := "minim:".toList) (by decide +kernel) (by decide) (by decide) (by decide +kernel)

theorem noStep_print (q : QueryExpr) (r : Chars) : NoStep (q.print ++ r) := by
  obtain ⟨kw, c, rest, h1, h2, h3, h4⟩ := print_head q
  intro w t hw e
  rw [h4, List.append_assoc] at e
  obtain ⟨_, e⟩ := split_stop h1 hw (Stops.cons h2) (Stops.cons (by decide)) e
  injection e with e _
  exact h3 e

/-- The steps of a path can be told from its lines. -/
theorem steps_inj : ∀ {p p' : List SpecificDecision} {ts ts' : List Chars} {r r' : Chars},
    (∀ x ∈ p, IsWordText x.action ∧ x.source.locations.Readable) →
    (∀ x ∈ p', IsWordText x.action ∧ x.source.locations.Readable) → p.mapM SpecificDecision.text = .ok ts →
    p'.mapM SpecificDecision.text = .ok ts' → NoStep r → NoStep r' → ts.flatten ++ r = ts'.flatten ++ r' →
    List.Forall₂ (fun x y => x.action = y.action ∧ x.source.locations.Same y.source.locations) p p' ∧ r = r' := by
  have step : ∀ {x : SpecificDecision} {t : Chars}, x.text = .ok t → ∃ st, x.source.text = .ok st ∧
      t = x.action.toList ++ ' ' :: ("from ".toList ++ (st ++ ['\n'])) := by
    intro x t h
    obtain ⟨st, h1, h⟩ := bind_ok h
    cases h
    exact ⟨st, h1, by rw [show " from ".toList = ' ' :: "from ".toList by decide +kernel]; rfl⟩
  intro p
  induction p with
  | nil =>
    intro p' ts ts' r r' h h' ht ht' hr hr' e
    cases ht
    cases p' with
    | nil => cases ht'; exact ⟨.nil, e⟩
    | cons y p' =>
      rw [List.mapM_cons] at ht'
      obtain ⟨t, h1, ht'⟩ := bind_ok ht'
      obtain ⟨us, h2, ht'⟩ := bind_ok ht'
      cases ht'
      obtain ⟨st, _, rfl⟩ := step h1
      exfalso
      rw [List.flatten_cons] at e
      simp only [List.append_assoc, List.cons_append] at e
      exact hr _ _ (h' y (List.mem_cons_self ..)).1 e
  | cons x p ih =>
    intro p' ts ts' r r' h h' ht ht' hr hr' e
    rw [List.mapM_cons] at ht
    obtain ⟨t, h1, ht⟩ := bind_ok ht
    obtain ⟨us, h2, ht⟩ := bind_ok ht
    cases ht
    obtain ⟨st, h3, rfl⟩ := step h1
    cases p' with
    | nil =>
      cases ht'
      exfalso
      rw [List.flatten_cons] at e
      simp only [List.append_assoc, List.cons_append] at e
      exact hr' _ _ (h x (List.mem_cons_self ..)).1 e.symm
    | cons y p' =>
      rw [List.mapM_cons] at ht'
      obtain ⟨t', k1, ht'⟩ := bind_ok ht'
      obtain ⟨us', k2, ht'⟩ := bind_ok ht'
      cases ht'
      obtain ⟨st', k3, rfl⟩ := step k1
      obtain ⟨a1, a2⟩ := h x (List.mem_cons_self ..)
      obtain ⟨b1, b2⟩ := h' y (List.mem_cons_self ..)
      rw [List.flatten_cons, List.flatten_cons] at e
      simp only [List.append_assoc, List.cons_append, List.nil_append] at e
      obtain ⟨e1, e⟩ := until_char (a1.without (by decide)) (b1.without (by decide)) e
      rw [List.append_cancel_left_eq] at e
      obtain ⟨e2, e⟩ := SpecificState.text_inj a2 b2 h3 k3 e
      injection e with _ e
      obtain ⟨e3, e⟩ := ih (fun z hz => h z (List.mem_cons_of_mem _ hz)) (fun z hz => h' z (List.mem_cons_of_mem _ hz)) h2 k2
        hr hr' e
      exact ⟨.cons ⟨toList_inj e1, e2⟩ e3, e⟩

/-- A result can be told from its text, and where it ends. -/
theorem report_inj {esc : Char → Chars} (hesc : ∀ c, isWord c = true → esc c = [c]) {ord ord' : List String → List String}
    (ho : ∀ l, (ord l).Perm l) (ho' : ∀ l, (ord' l).Perm l) {q : QueryExpr} {x x' : QueryReport} {a a' r r' : Chars}
    (hq : x.Answers q) (hq' : x'.Answers q) (h : x.Readable) (h' : x'.Readable) (ha : x.text esc ord q.print = .ok a)
    (ha' : x'.text esc ord' q.print = .ok a') (hr : NoStep r) (hr' : NoStep r') (e : a ++ r = a' ++ r') :
    x.Same x' ∧ r = r' := by
  have two : ∀ {x y : Chars}, satisfiedText q.print ++ x ≠ notSatisfiedText q.print ++ y := by
    intro x y e
    unfold satisfiedText notSatisfiedText at e
    rw [List.append_assoc, List.append_assoc, List.append_cancel_left_eq] at e
    exact clash 18 (by decide +kernel) (by decide +kernel) (by decide +kernel) e
  cases q with
  | refinement l m =>
    obtain ⟨o, rfl⟩ := hq
    obtain ⟨o', rfl⟩ := hq'
    cases o with
    | none =>
      cases ha
      cases o' with
      | none => cases ha'; rw [List.append_cancel_left_eq] at e; exact ⟨.refines, e⟩
      | some f =>
        obtain ⟨t, _, ha'⟩ := bind_ok ha'
        cases ha'
        rw [List.append_assoc] at e
        exact absurd e two
    | some f =>
      obtain ⟨t, h1, ha⟩ := bind_ok ha
      cases ha
      cases o' with
      | none => cases ha'; rw [List.append_assoc] at e; exact absurd e.symm two
      | some f' =>
        obtain ⟨t', h1', ha'⟩ := bind_ok ha'
        cases ha'
        simp only [List.append_assoc, List.append_cancel_left_eq] at e
        obtain ⟨e1, e⟩ := RefinementReport.text_inj hesc ho ho' h h' h1 h1' e
        injection e with _ e
        exact ⟨.refinesNot e1, e⟩
  | reachability s start goal =>
    obtain ⟨o, rfl⟩ := hq
    obtain ⟨o', rfl⟩ := hq'
    cases o with
    | none =>
      cases ha
      cases o' with
      | none => cases ha'; rw [List.append_cancel_left_eq] at e; exact ⟨.unreachable, e⟩
      | some f =>
        obtain ⟨t, _, ha'⟩ := bind_ok ha'
        cases ha'
        rw [List.append_assoc] at e
        exact absurd e.symm two
    | some f =>
      obtain ⟨t, h1, ha⟩ := bind_ok ha
      cases ha
      cases o' with
      | none => cases ha'; rw [List.append_assoc] at e; exact absurd e two
      | some f' =>
        obtain ⟨t', h1', ha'⟩ := bind_ok ha'
        cases ha'
        obtain ⟨ts, h2, h1⟩ := bind_ok h1
        cases h1
        obtain ⟨ts', h2', h1'⟩ := bind_ok h1'
        cases h1'
        simp only [List.append_assoc, List.append_cancel_left_eq] at e
        obtain ⟨e1, e⟩ := steps_inj h h' h2 h2' hr hr' e
        exact ⟨.reachable e1, e⟩
  | consistency s =>
    obtain ⟨o, rfl⟩ := hq
    obtain ⟨o', rfl⟩ := hq'
    cases o <;> cases ha <;> cases o' <;> cases ha'
    · exact ⟨.consistent, List.append_cancel_left e⟩
    · exact absurd e two
    · exact absurd e.symm two
    · exact ⟨.consistentNot, List.append_cancel_left e⟩
  | determinism s =>
    obtain ⟨o, rfl⟩ := hq
    obtain ⟨o', rfl⟩ := hq'
    cases o <;> cases ha <;> cases o' <;> cases ha'
    · exact ⟨.deterministic, List.append_cancel_left e⟩
    · exact absurd e two
    · exact absurd e.symm two
    · exact ⟨.deterministicNot, List.append_cancel_left e⟩
  | getComponent s | prune s =>
    obtain ⟨o, rfl⟩ := hq
    obtain ⟨o', rfl⟩ := hq'
    cases ha; cases ha'
    rw [List.append_cancel_left_eq] at e
    exact ⟨.created, e⟩
  | implementation s => exact hq.elim
  | specification s => exact hq.elim
  | bisimMinim s => exact hq.elim

theorem noStep_results {esc : Char → Chars} {ord : List String → List String} {rs : List (QueryExpr × QueryReport)}
    {ts : List Chars} (h : rs.mapM (fun r => r.2.text esc ord r.1.print) = .ok ts) : NoStep ts.flatten := by
  cases rs with
  | nil => cases h; exact noStep_nil
  | cons x rs =>
    rw [List.mapM_cons] at h
    obtain ⟨t, h1, h⟩ := bind_ok h
    obtain ⟨us, _, h⟩ := bind_ok h
    cases h
    rw [List.flatten_cons]
    have : ∃ u, t = x.1.print ++ u := by
      have := verdictLine h1
      revert this
      generalize x.2.printed = k
      rintro ⟨⟩ <;> exact ⟨_, rfl⟩
    obtain ⟨u, rfl⟩ := this
    rw [List.append_assoc]
    exact noStep_print _ _

/-- **C77 (reading).** Two runs of the same queries that print the same have the same results: all verdicts are the same, every
failed refinement has the same reason, and every path the same steps.
Missing from the full property: names that are not words, for which different failures can look the same
(`C77_violated_names`); clock constraints, numbers of component instances and the causes of inconsistency and
nondeterminism are not printed at all. -/
theorem C77_results_partial {esc : Char → Chars} (hesc : ∀ c, isWord c = true → esc c = [c])
    {ord ord' : List String → List String} (ho : ∀ l, (ord l).Perm l) (ho' : ∀ l, (ord' l).Perm l)
    {rs rs' : List (QueryExpr × QueryReport)} (hq : rs.map (·.1) = rs'.map (·.1))
    (h : ∀ r ∈ rs, r.2.Answers r.1 ∧ r.2.Readable) (h' : ∀ r ∈ rs', r.2.Answers r.1 ∧ r.2.Readable) {p : Chars}
    (hp : resultsText esc ord rs = .ok p) (hp' : resultsText esc ord' rs' = .ok p) :
    List.Forall₂ (fun r r' => r.2.Same r'.2) rs rs' := by
  obtain ⟨ts, h1, g⟩ := bind_ok hp
  obtain ⟨ts', h1', g'⟩ := bind_ok hp'
  have e : ts.flatten = ts'.flatten := List.append_cancel_left (Except.ok.inj (g.trans g'.symm))
  clear g g' hp hp'
  induction rs generalizing rs' ts ts' with
  | nil =>
    cases rs' with
    | nil => exact .nil
    | cons r rs' => cases hq
  | cons r rs ih =>
    cases rs' with
    | nil => cases hq
    | cons r' rs' =>
      rw [List.map_cons, List.map_cons] at hq
      injection hq with hq1 hq2
      rw [List.mapM_cons] at h1 h1'
      obtain ⟨t, h2, h1⟩ := bind_ok h1
      obtain ⟨us, h3, h1⟩ := bind_ok h1
      cases h1
      obtain ⟨t', h2', h1'⟩ := bind_ok h1'
      obtain ⟨us', h3', h1'⟩ := bind_ok h1'
      cases h1'
      rw [List.flatten_cons, List.flatten_cons] at e
      obtain ⟨a1, a2⟩ := h r (List.mem_cons_self ..)
      obtain ⟨b1, b2⟩ := h' r' (List.mem_cons_self ..)
      rw [← hq1] at b1 h2'
      obtain ⟨e1, e2⟩ := report_inj hesc ho ho' a1 b1 a2 b2 h2 h2' (noStep_results h3) (noStep_results h3') e
      exact .cons e1 (ih hq2 (fun x hx => h x (List.mem_cons_of_mem _ hx)) (fun x hx => h' x (List.mem_cons_of_mem _ hx)) us h3 us'
        h3' e2)

/-! ## Reports with names that can be read -/

section
variable {F : Type} [ZoneLib F]

theorem IsWordText.quotable {s : String} (h : IsWordText s) : Quotable s := h.without (by decide)

theorem Quotable.append {s t : String} (h : Quotable s) (h' : Quotable t) : Quotable (s ++ t) := by
  intro hm
  rw [String.toList_append] at hm
  rcases List.mem_append.1 hm with hm | hm
  · exact h hm
  · exact h' hm

theorem newInput_word (i : Nat) : IsWordText s!"quotient_new_input{i}" := by
  intro c hc
  rw [String.toList_append] at hc
  rcases List.mem_append.1 hc with hc | hc
  · have all : ∀ c ∈ "quotient_new_input".toList, isWord c = true := by decide +kernel
    exact all c hc
  · exact isWord_of_digit ((toString_digits i).2 c hc)

theorem freshInput_word (l : List String) : ∀ n i, IsWordText (Sys.freshInput l n i) := by
  intro n
  induction n with
  | zero => intro i; exact newInput_word i
  | succ n ih =>
    intro i
    unfold Sys.freshInput
    split
    · exact ih _
    · exact newInput_word i

/-- What is named in a system put together from components with readable names. -/
structure Sys.Words (r : Recipe) (s : Sys F) : Prop where
  inputs : ∀ a ∈ s.inputs, IsWordText a
  outputs : ∀ a ∈ s.outputs, IsWordText a
  name : Quotable s.name
  locs : ∀ l, s.IsLoc l → ∀ n k loc, r.InstanceAt l.id n k loc → IsWordText k.name ∧ IsWordText loc

theorem compile_words : ∀ {r : Recipe} {env : CompileEnv F} {i j : Nat} {s : Sys F}, env.Perm → r.Words →
    r.compile env i = .ok (s, j) → s.Words r := by
  have op : ∀ {a b : String} (o : String), Quotable o → Quotable a → Quotable b → Quotable ("(" ++ a ++ o ++ b ++ ")") :=
    fun o ho ha hb => (((Quotable.append (s := "(") (by unfold Quotable; decide +kernel) ha).append ho).append hb).append
      (by unfold Quotable; decide +kernel)
  intro r
  induction r with
  | component c id =>
    intro env i j s he hw h
    obtain ⟨y, h1, h⟩ := bind_ok h
    cases h
    have hc := hw c (List.mem_singleton.2 rfl)
    unfold CompComp.compile CompComp.compileWith at h1
    split at h1
    · cases h1
    obtain ⟨locs, h2, h1⟩ := bind_ok h1
    obtain ⟨es, _, h1⟩ := bind_ok h1
    cases h1
    have acts : ∀ k, ∀ a ∈ c.specificActions k, IsWordText a := by
      intro k a ha
      unfold Component.specificActions at ha
      rw [mem_mkSet] at ha
      obtain ⟨e, he, rfl⟩ := List.mem_map.1 ha
      exact hc.2.2 e (List.mem_filter.1 he).1
    refine ⟨acts _, acts _, hc.1.quotable, ?_⟩
    rintro l ⟨p, hp, rfl⟩ n k loc hi
    obtain ⟨_, loc', hl, hs⟩ := (buildLocations_spec h2).2.1 p ((he _ _).mem_iff.1 hp)
    obtain ⟨inv, hp2, _⟩ := simple_spec hs
    rw [hp2] at hi
    cases hi
    exact ⟨hc.1, hc.2.1 _ hl⟩
  | composition l r ihl ihr =>
    intro env i j s he hw h
    obtain ⟨⟨sl, k⟩, h1, h⟩ := bind_ok h
    obtain ⟨⟨sr, m⟩, h2, h⟩ := bind_ok h
    obtain ⟨x, h3, h⟩ := bind_ok h
    cases h
    have a := ihl (env := env.sub false) he (fun c hc => hw c (List.mem_append_left _ hc)) h1
    have b := ihr (env := env.sub true) he (fun c hc => hw c (List.mem_append_right _ hc)) h2
    obtain ⟨_, rfl⟩ := Sys.newComposition_eq h3
    refine ⟨fun x hx => ?_, fun x hx => ?_, op _ (by unfold Quotable; decide +kernel) a.name b.name, ?_⟩
    · rcases List.mem_append.1 (mem_mkSet.1 hx) with hx | hx
      · exact a.inputs x (List.mem_filter.1 hx).1
      · exact b.inputs x (List.mem_filter.1 hx).1
    · rcases mem_setUnion.1 hx with hx | hx
      · exact a.outputs x hx
      · exact b.outputs x hx
    · rintro x ⟨y, z, hy, hz, hx⟩ n k loc hi
      cases hx
      cases hi with
      | compositionLeft hi => exact a.locs y hy _ _ _ hi
      | compositionRight hi => exact b.locs z hz _ _ _ hi
  | conjunction l r ihl ihr =>
    intro env i j s he hw h
    obtain ⟨⟨sl, k⟩, h1, h⟩ := bind_ok h
    obtain ⟨⟨sr, m⟩, h2, h⟩ := bind_ok h
    obtain ⟨x, h3, h⟩ := bind_ok h
    cases h
    have a := ihl (env := env.sub false) he (fun c hc => hw c (List.mem_append_left _ hc)) h1
    have b := ihr (env := env.sub true) he (fun c hc => hw c (List.mem_append_right _ hc)) h2
    obtain ⟨_, _, rfl⟩ := Sys.newConjunction_eq (newConjunction_unchecked h3)
    refine ⟨fun x hx => a.inputs x (mem_setInter.1 hx).1, fun x hx => a.outputs x (mem_setInter.1 hx).1,
      op _ (by unfold Quotable; decide +kernel) a.name b.name, ?_⟩
    rintro x ⟨y, z, hy, hz, hx⟩ n k loc hi
    cases hx
    cases hi with
    | conjunctionLeft hi => exact a.locs y hy _ _ _ hi
    | conjunctionRight hi => exact b.locs z hz _ _ _ hi
  | quotient l r q ihl ihr =>
    intro env i j s he hw h
    obtain ⟨⟨sl, k⟩, h1, h⟩ := bind_ok h
    obtain ⟨⟨sr, m⟩, h2, h⟩ := bind_ok h
    obtain ⟨x, h3, h⟩ := bind_ok h
    cases h
    have a := ihl (env := env.sub false) he (fun c hc => hw c (List.mem_append_left _ hc)) h1
    have b := ihr (env := env.sub true) he (fun c hc => hw c (List.mem_append_right _ hc)) h2
    obtain ⟨_, rfl⟩ := Sys.newQuotient_eq (newQuotient_unchecked h3)
    refine ⟨fun x hx => ?_, fun x hx => ?_, op _ (by unfold Quotable; decide +kernel) a.name b.name, ?_⟩
    · rcases mem_setUnion.1 hx with hx | hx
      · rcases mem_setUnion.1 hx with hx | hx
        · exact a.inputs x hx
        · exact b.outputs x hx
      · rw [List.mem_singleton.1 hx]; exact freshInput_word _ _ _
    · rcases mem_setUnion.1 hx with hx | hx
      · exact a.outputs x (mem_setDiff.1 hx).1
      · exact b.inputs x (mem_setDiff.1 hx).1
    · rintro x (⟨y, z, hy, hz, rfl⟩ | rfl | rfl) n k loc hi
      · cases hi with
        | quotientLeft hi => exact a.locs y hy _ _ _ hi
        | quotientRight hi => exact b.locs z hz _ _ _ hi
      · cases hi
      · cases hi

theorem located_readable {r : Recipe} {s : Sys F} (h : s.Words r) {l : LocTree F} (hl : s.IsLoc l) {base : Nat}
    {x : SpecificLoc} (hx : LocatedAs r base l.id x) : x.Readable := by
  rintro ⟨c, n⟩ hp
  obtain ⟨i, k, hi, rfl⟩ := (hx c n).1 hp
  exact h.locs l hl _ _ _ hi

theorem tells_readable {insts : List Component} {n : Nat} {k : Component} {loc : Location} {z : F} {x : SpecificState}
    (h : x.Tells insts n k loc z) (hk : k.Words) : x.locations.Readable := by
  rw [h.located]
  intro p hp
  cases List.mem_singleton.1 hp
  exact ⟨hk.1, hk.2.1 _ h.location⟩

theorem det_readable {insts : List Component} {ts : TS F} {f : DetFailure F} {x : DetReport} {n : Nat} {k : Component}
    {loc : Location} (h : x.Told insts ts f n k loc) (hk : k.Words) : x.Readable := by
  refine ⟨by rw [h.system]; exact hk.1.quotable, ?_, tells_readable h.state hk⟩
  obtain ⟨_, _, _, _, e, _, _, _, _, h1, _, h2, _⟩ := h.clash
  rw [← h2.2.1]
  exact hk.2.2 e (List.mem_of_getElem? h1)

theorem cons_readable {insts : List Component} {ts : TS F} {n : Nat} {k : Component} {f : ConsFailure F} {x : ConsReport}
    (h : x.Told insts ts n k f) (hk : k.Words) : x.Readable := by
  cases h with
  | noInitialState _ _ => exact hk.1.quotable
  | inconsistent h _ _ _ => exact ⟨hk.1.quotable, tells_readable h hk⟩
  | inconsistentFrom h _ _ _ _ => exact ⟨hk.1.quotable, tells_readable h hk⟩
  | notDeterministic h => exact det_readable h hk

/-- **C77 (readable).** Whatever is told about a failed refinement of systems whose components have words as names has only
names that can be read. -/
theorem C77_readable {l r : Recipe} {s t : Sys F} (hs : l.Means s) (ht : r.Means t) (hl : l.Words) (hr : r.Words)
    {f : RefFailure F} {x : RefinementReport} (h : x.Told l r s t f) : x.Readable := by
  obtain ⟨env, i, j, he, hs⟩ := hs
  obtain ⟨env', i', j', he', ht⟩ := ht
  have a := compile_words he hl hs
  have b := compile_words he' hr ht
  have hn : Quotable (s.name ++ " <= " ++ t.name) := (a.name.append (by unfold Quotable; decide +kernel)).append b.name
  have set : ∀ {y : ActionSet} {q : Recipe} {u : Sys F} {b : Bool}, u.Words q → y.Tells u b → y.Readable := by
    intro y q u b hu hy
    refine ⟨by rw [hy.system]; exact hu.name, fun c hc => ?_⟩
    have := (hy.actions c).1 hc
    cases b with
    | true => exact hu.inputs c this
    | false => exact hu.outputs c this
  cases h with
  | left h1 _ h2 => exact ⟨cons_readable h2 (hl _ (List.mem_of_getElem? h1)), hn⟩
  | right h1 _ h2 => exact ⟨cons_readable h2 (hr _ (List.mem_of_getElem? h1)), hn⟩
  | actions _ h =>
    rcases h with ⟨h1, h2, _⟩ | ⟨h1, h2, _⟩ | ⟨h1, h2, _⟩ | ⟨h1, h2, _⟩
    · exact ⟨set a h1, set b h2, hn⟩
    · exact ⟨set b h1, set a h2, hn⟩
    · exact ⟨set a h1, set b h2, hn⟩
    · exact ⟨set b h1, set a h2, hn⟩
  | emptyLeft _ _ => exact ⟨a.name, hn⟩
  | emptyRight _ _ => exact ⟨b.name, hn⟩
  | emptyInitial _ _ _ => exact hn
  | state _ h1 h2 h3 h4 =>
    refine ⟨hn, ?_, ?_⟩
    · rcases h4 with ⟨_, h4⟩ | ⟨_, h4⟩
      · exact a.outputs _ h4
      · exact b.inputs _ h4
    · obtain ⟨y, z, e, hy, hz⟩ := h3.locations
      rw [e]
      intro p hp
      rcases List.mem_append.1 hp with hp | hp
      · exact located_readable a h1 hy p hp
      · exact located_readable b h2 hz p hp

/-- The same for the steps of a path. -/
theorem C77_path_readable {r : Recipe} {s : Sys F} (ha : s.Accepted) (hs : r.Means s) (hr : r.Words) {l l' : LocTree F}
    {v v' : Val} {xs : List SpecificDecision} (hl : s.IsLoc l) (h : s.ts.ToldRun r l v xs l' v') :
    (QueryReport.reachability (some xs)).Readable := by
  obtain ⟨env, i, j, he, hs⟩ := hs
  have a := compile_words he hr hs
  have : ∀ x ∈ xs, IsWordText x.action ∧ x.source.locations.Readable := by
    induction h with
    | done _ => intro x hx; cases hx
    | @step l l' v v' d t trans tes x path hd hact hn ht hc hsrc hnames htakes hdst h ih =>
      intro y hy
      rcases List.mem_cons.1 hy with rfl | hy
      · refine ⟨?_, located_readable a hl hsrc.1⟩
        have hact : (s.inputs.contains y.action || s.outputs.contains y.action) = true := hact
        rcases Bool.or_eq_true_iff.1 hact with hact | hact
        · exact a.inputs _ (List.contains_iff_mem.1 hact)
        · exact a.outputs _ (List.contains_iff_mem.1 hact)
      · exact ih ((ha.good.next_ok hl hact hn t ht).1) y hy
  exact this

theorem Recipe.ReducedTo.words {r r' : Recipe} {n m : Nat} {ρ : ClockMap} (h : r.ReducedTo r' n m ρ) (hw : r.Words) :
    r'.Words := by
  obtain ⟨rem, g, k, q', rfl, _⟩ := h.form
  intro c hc
  rw [Recipe.reshape_components] at hc
  obtain ⟨c0, h0, rfl⟩ := List.mem_map.1 hc
  have w := hw c0 h0
  refine ⟨w.1, ?_, ?_⟩
  · intro l hl
    obtain ⟨l1, h1, e1⟩ : ∃ l1 ∈ c0.locations, l.id = l1.id := by
      have hl : l ∈ ((c0.without rem).withClocks g).locations := hl
      obtain ⟨l1, h1, rfl⟩ := List.mem_map.1 hl
      exact ⟨l1, h1, rfl⟩
    rw [e1]
    exact w.2.1 l1 h1
  · intro e he
    obtain ⟨e1, h1, e2⟩ : ∃ e1 ∈ c0.edges, e.action = e1.action := by
      have he : e ∈ ((c0.without rem).withClocks g).edges := he
      obtain ⟨e1, h1, rfl⟩ := List.mem_map.1 he
      exact ⟨e1, h1, rfl⟩
    rw [e2]
    exact w.2.2 e1 h1

end

/-! ## Queries -/

section
variable {Z : Nat → Type} [∀ d, ZoneLib (Z d)]

/-- Whatever readable result of the query prints the same is the same. -/
def QueryReport.ToldBy (esc : Char → Chars) (q : QueryExpr) (x : QueryReport) (p : Chars) : Prop :=
  ∀ (x' : QueryReport) (ord' : List String → List String), (∀ l, (ord' l).Perm l) → x'.Answers q → x'.Readable →
    x'.text esc ord' q.print = .ok p → x.Same x'

theorem toldBy {esc : Char → Chars} (hesc : ∀ c, isWord c = true → esc c = [c]) {ord : List String → List String}
    (ho : ∀ l, (ord l).Perm l) {q : QueryExpr} {x : QueryReport} {p : Chars} (hq : x.Answers q) (h : x.Readable)
    (hp : x.text esc ord q.print = .ok p) : x.ToldBy esc q p := by
  intro x' ord' ho' hq' h' hp'
  exact (report_inj hesc ho ho' (r := []) (r' := []) hq hq' h h' hp hp' noStep_nil noStep_nil rfl).1

/-- **C77 (refinement query).** If a refinement query about components with words as names has an answer, what is printed for
it tells why the refinement fails: the failure is the one that was found (`RefinementReport.Told`), and no other failure looks
like it. -/
theorem C77_refinement_answered_partial (hZ : ∀ d, dim (Z d) = d + 1) (X : QueryEnv Z) (hX : X.Fair) (hch : X.FairChecks)
    (E : ReportEnv) (hE : E.Fair) (load : String → Res Component) (hload : ∀ n c, load n = .ok c → c.decls.Numbered)
    (e e' : SysExpr) (l r : Recipe) (d : Nat) (q : Option Nat) (hr : getRecipes load [e, e'] 0 none = .ok ([l, r], d, q))
    (hc : X.Comparable l r d q) (s t : Sys (Z d)) (hs : l.Means s) (ht : r.Means t) (hn : s.NewInputsUnused)
    (hn' : t.NewInputsUnused) (hne : s.inputs ≠ [] ∨ s.outputs ≠ []) (hl : l.Words) (hr' : r.Words)
    {esc : Char → Chars} (hesc : ∀ c, isWord c = true → esc c = [c]) {ord : List String → List String}
    (ho : ∀ l, (ord l).Perm l) (d' : Nat) (f : RefFailure (Z d'))
    (h : X.run load (.refinement e e') = .ok (.refinement d' (some f))) :
    ∃ (l' r' : Recipe) (s' t' : Sys (Z d')) (ρ σ : ClockMap) (x : RefinementReport) (p : Chars),
      l.ReducedTo l' (d + 1) (d' + 1) ρ ∧ r.ReducedTo r' (d + 1) (d' + 1) σ ∧ l'.Means s' ∧ r'.Means t' ∧
      X.result E load (.refinement e e') = .ok (.refinement (some x)) ∧ x.Told l' r' s' t' f ∧
      (QueryReport.refinement (some x)).text esc ord (QueryExpr.refinement e e').print = .ok p ∧
      (QueryReport.refinement (some x)).ToldBy esc (.refinement e e') p := by
  obtain ⟨l', r', s', t', ρ, σ, y, a, b, h1, h2, h3, _, h4⟩ := C76_refinement_answered_partial hZ X hX hch E hE load hload e e'
    l r d q hr hc s t hs ht hn hn' hne d' (some f) h
  obtain ⟨x, m, rfl, h5, _⟩ := h4 f rfl
  obtain ⟨h6, p, hp⟩ := C77_total X E load _ _ h3 esc ord (QueryExpr.refinement e e').print
  exact ⟨l', r', s', t', ρ, σ, x, p, a, b, h1, h2, h3, h5, hp,
    toldBy hesc ho h6 (C77_readable h1 h2 (a.words hl) (b.words hr') h5) hp⟩

/-- **C77 (reachability query).** If a path is found for a reachability query about components with words as names, what is
printed for it tells the actions and the locations of an execution from the start state. -/
theorem C77_reachability_answered_partial (hZ : ∀ d, dim (Z d) = d + 1) (X : QueryEnv Z) (hX : X.Fair) (E : ReportEnv)
    (hE : E.Fair) (load : String → Res Component) (hload : ∀ n c, load n = .ok c → c.decls.Numbered) (e : SysExpr) (r : Recipe)
    (d : Nat) (q : Option Nat) (hr : getRecipes load [e] 0 none = .ok ([r], d, q)) (hc : r.Searchable d) (hd : d < 2 ^ 32)
    (hpl : ∀ c ∈ r.components, c.Plain ∧ c.Deadlines (d + 1)) (hw : r.Words) {esc : Char → Chars}
    (hesc : ∀ c, isWord c = true → esc c = [c]) {ord : List String → List String} (ho : ∀ l, (ord l).Perm l)
    (start : Option StateExpr) (goal : StateExpr) (ds : List (Decision (Z d)))
    (h : X.run load (.reachability e start goal) = .ok (.reachability d (some ds))) :
    ∃ (s : Sys (Z d)) (st en : State (Z d)) (xs : List SpecificDecision) (p : Chars),
      r.Means s ∧ reachabilityQuery (X.compiled d) r start goal = .ok (s, st, en) ∧
      X.result E load (.reachability e start goal) = .ok (.reachability (some xs)) ∧
      (∃ v ∈ den st.zone, v ∈ InvSet st.loc ∧ ∃ l' v', s.ts.ToldRun r st.loc v xs l' v' ∧ en.loc.id.Matches l'.id) ∧
      (QueryReport.reachability (some xs)).text esc ord (QueryExpr.reachability e start goal).print = .ok p ∧
      (QueryReport.reachability (some xs)).ToldBy esc (.reachability e start goal) p := by
  have hok := Recipe.Searchable.ok hZ hload hr hc
  obtain ⟨t, j, st, en, o, h1, h2, h3, h4, h5, hA⟩ := X.reachability_form hr h
  cases hA
  have hperm := (hX.compiled d).2.2.1
  obtain ⟨ha, hloc, hp⟩ := C46_query _ hperm r hok start goal t st en h4
  obtain ⟨_, hpast⟩ := Recipe.compile_ofPlain hperm hok
    (fun c hm => ⟨by rw [hZ]; exact (hc.comps c hm).1.clear, by rw [hZ]; exact hpl c hm⟩) h1
  obtain ⟨⟨r0, d1, q1⟩, e1, hr⟩ := bind_ok hr
  cases hr
  obtain ⟨xs, qs, g1, _, _, v, g3, g4, l', v', g5, g6⟩ := C75_path_partial hperm hok (fun c hm => (hc.comps c hm).1.names) h1
    (by rw [hZ]; omega) hE.clocks hpast (X.zoneBounds d) st en hloc hp X.fuel ds h5
  have hres : X.result E load (.reachability e start goal) = .ok (.reachability (some xs)) := by
    unfold QueryEnv.result
    dsimp only
    rw [e1, ok_bind]
    dsimp only
    rw [h4, ok_bind]
    dsimp only
    rw [g1]
    rfl
  obtain ⟨k1, p, k2⟩ := C77_total X E load _ _ hres esc ord (QueryExpr.reachability e start goal).print
  exact ⟨t, st, en, xs, p, ⟨_, _, _, hperm, h1⟩, h4, hres, ⟨v, g3, g4, l', v', g5, g6⟩, k2,
    toldBy hesc ho k1 (C77_path_readable ha ⟨_, _, _, hperm, h1⟩ hw hloc g5) k2⟩

end

/-! ## Concrete cases -/

/-- Characters of words are shown as they are. -/
def plainEsc (c : Char) : Chars := [c]

theorem wordText_of {s : String} (h : (s.toList.all isWord) = true) : IsWordText s := fun c hc => List.all_eq_true.1 h c hc

theorem words_of {c : Component} (h : (c.name.toList.all isWord && c.locations.all (fun l => l.id.toList.all isWord) &&
    c.edges.all fun e => e.action.toList.all isWord) = true) : c.Words := by
  simp only [Bool.and_eq_true, List.all_eq_true] at h
  exact ⟨h.1.1, h.1.2, h.2⟩

/-- `A <= C` fails: what is printed tells why. -/
example : ∃ (x : RefinementReport) (p : Chars),
    (plainQueries (Z := FedD) true).result plainReport loadTwo (.refinement (.component "A" none) (.component "C" none)) =
      .ok (.refinement (some x)) ∧
    (QueryReport.refinement (some x)).text plainEsc id (QueryExpr.refinement (.component "A" none) (.component "C" none)).print =
      .ok p ∧ (QueryReport.refinement (some x)).ToldBy plainEsc (.refinement (.component "A" none) (.component "C" none)) p := by
  obtain ⟨f, hf, hp⟩ := refinementAnswer_no (d := 2)
    (x := (plainQueries true).run loadTwo (.refinement (.component "A" none) (.component "C" none))) (by decide +kernel)
  obtain ⟨_, _, _, _, _, _, x, p, _, _, _, _, h1, _, h2, h3⟩ := C77_refinement_answered_partial dim_fedD (plainQueries true)
    (plainQueries_fair _) (plainQueries_checks _) plainReport plainReport_fair loadTwo loadTwo_numbered _ _ _ _ 3 none
    exTwo_recipes.2 (exTwo_comparable true (.inr rfl)) sysClient sysPicky exTwo_means.1 exTwo_means.2.2 trivial trivial
    (.inr (by decide +kernel)) (fun c hc => by rw [List.mem_singleton.1 hc]; exact words_of (by decide +kernel))
    (fun c hc => by rw [List.mem_singleton.1 hc]; exact words_of (by decide +kernel)) (esc := plainEsc) (fun _ _ => rfl)
    (ord := id) (fun _ => .refl _) 2 f hf
  exact ⟨x, p, h1, h2, h3⟩

/-- What is printed; the component in the file `C` is called `B`. -/
theorem exPrinted_no : ((plainQueries (Z := FedD) true).result plainReport loadTwo
      (.refinement (.component "A" none) (.component "C" none)) >>= fun x => x.text plainEsc id
        (QueryExpr.refinement (.component "A" none) (.component "C" none)).print) =
    .ok ("refinement: A <= C -- Property is NOT satisfied\n" ++ "\nGot failure: The refinement 'A <= B' fails in state " ++
      "((A.L0<=B.M0)) because Output \"out\" cannot be matched\n").toList := by
  decide +kernel

/-- A path of `reachability: A -> A.L1 && A.x > 3` is found, and what is printed tells it. -/
example : ∃ (xs : List SpecificDecision) (p : Chars),
    pathQueries.result plainReport exLoadA (.reachability (.component "A" none) none exLater) = .ok (.reachability (some xs)) ∧
    (QueryReport.reachability (some xs)).text plainEsc id (QueryExpr.reachability (.component "A" none) none exLater).print =
      .ok p ∧ (QueryReport.reachability (some xs)).ToldBy plainEsc (.reachability (.component "A" none) none exLater) p := by
  have h : answeredPath (pathQueries.run exLoadA (.reachability (.component "A" none) none exLater)) =
      some (1, [("go", [⟨⟨"A", 0⟩, "e0"⟩])]) := by decide +kernel
  revert h
  generalize hx : pathQueries.run exLoadA (.reachability (.component "A" none) none exLater) = x
  intro h
  unfold answeredPath at h
  split at h
  · next ds =>
    obtain ⟨_, _, _, xs, p, _, _, h1, _, h2, h3⟩ := C77_reachability_answered_partial dim_fedD pathQueries pathQueries_fair
      plainReport plainReport_fair exLoadA exLoadA_numbered (.component "A" none) _ 1 none rfl exA_searchable (by decide)
      (fun c hc => by rw [List.mem_singleton.1 hc]; exact ⟨Component.plain_of_plainB (by decide), exA_deadlines⟩)
      (fun c hc => by rw [List.mem_singleton.1 hc]; exact words_of (by decide +kernel)) (esc := plainEsc) (fun _ _ => rfl)
      (ord := id) (fun _ => .refl _) none exLater ds hx
    exact ⟨xs, p, h1, h2, h3⟩
  · cases h

/-- What is printed for it. -/
theorem exPrinted_path : (pathQueries.result plainReport exLoadA (.reachability (.component "A" none) none exLater) >>= fun x =>
      x.text plainEsc id (QueryExpr.reachability (.component "A" none) none exLater).print) =
    .ok ("reachability: A @ init -> (A.L1 && A.x > 3) -- Property is satisfied\n" ++ "Edges that have been taken:\n" ++
      "go from (A.L0)\n").toList := by
  decide +kernel

/-! ## Names that are not words -/

/-- Location `p||B.q` of one component and `p` of it -/
def exMistA : Component := ⟨"A", ⟨[], []⟩,
  [⟨"p", none, .initial, "NORMAL"⟩, ⟨"p||B.q", none, .normal, "NORMAL"⟩], []⟩

/-- Locations of the other -/
def exMistB : Component := ⟨"B", ⟨[], []⟩,
  [⟨"q||B.y", none, .initial, "NORMAL"⟩, ⟨"y", none, .normal, "NORMAL"⟩], []⟩

/-- The composition of the two -/
def sysMist : Sys Fed4 := getOk (Sys.newComposition (.comp (getOk (CompComp.compile id exMistA 0) (by decide +kernel)))
  (.comp (getOk (CompComp.compile id exMistB 1) (by decide +kernel)))) (by decide +kernel)

/-- **C77 fails for names that are not words.** The names of locations are read from the files as they are.  Two different
locations of a composition can be printed the same. -/
theorem C77_violated_names : ∃ ls, sysMist.allLocs = .ok ls ∧ ∃ l ∈ ls, ∃ l' ∈ ls, ∃ x y,
    specificLocation l.id sysMist.infos = .ok x ∧ specificLocation l'.id sysMist.infos = .ok y ∧ ¬ x.Same y ∧
      x.text = .ok "(A.p||B.q||B.y)".toList ∧ y.text = .ok "(A.p||B.q||B.y)".toList := by
  refine ⟨getOk sysMist.allLocs (by decide +kernel), getOk_eq _, (getOk sysMist.allLocs (by decide +kernel)).get ⟨0, by decide +kernel⟩,
    List.get_mem _ _, (getOk sysMist.allLocs (by decide +kernel)).get ⟨3, by decide +kernel⟩, List.get_mem _ _,
    .branch (.component ⟨"A", 0⟩ "p") (.component ⟨"B", 1⟩ "q||B.y") .composition,
    .branch (.component ⟨"A", 0⟩ "p||B.q") (.component ⟨"B", 1⟩ "y") .composition, by decide +kernel, by decide +kernel, ?_,
    by decide +kernel, by decide +kernel⟩
  intro h
  exact absurd h.1.2 (by decide)

end Reveaal
