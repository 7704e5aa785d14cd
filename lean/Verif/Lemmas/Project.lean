import Verif.Spec.Project
import Verif.Lemmas.Compile

/-!
# Loaders

What the queries see does not change when components are loaded.
-/

namespace Reveaal
open ZoneLib

variable {Z : Nat → Type} [∀ d, ZoneLib (Z d)] {σ : Type}

/-- what a loader gives for a name -/
def ComponentLoader.view (L : ComponentLoader σ) (st : σ) (name : String) : Res Component :=
  (L.get st name).map (·.1)

/-- loading changes nothing that can be seen -/
def ComponentLoader.Stable (L : ComponentLoader σ) : Prop :=
  ∀ st name c st', L.get st name = .ok (c, st') → L.view st' = L.view st

theorem bind_map_fst {α β γ : Type} {x : Res (α × γ)} {f : α × γ → Res (β × γ)} {y : Res α} {g : α → Res β}
    (hx : x.map (·.1) = y) (hf : ∀ a st, x = .ok (a, st) → (f (a, st)).map (·.1) = g a) :
    (x >>= f).map (·.1) = (y >>= g) := by
  subst hx
  cases x with
  | error e => rfl
  | ok p => exact hf p.1 p.2 rfl

/-- what loading does not change is not changed by making a recipe -/
theorem recipe_keeps {τ : Type} {L : ComponentLoader σ} {ρ : σ → τ}
    (hL : ∀ st name c st', L.get st name = .ok (c, st') → ρ st' = ρ st) : ∀ (e : SysExpr) (d : Nat) (q : Option Nat) (st : σ)
    (x : Recipe × Nat × Option Nat) (st' : σ), L.recipe e d q st = .ok (x, st') → ρ st' = ρ st
  | .composition l r, d, q, st, x, st', h | .conjunction l r, d, q, st, x, st', h => by
    unfold ComponentLoader.recipe at h
    obtain ⟨⟨⟨a1, a2, a3⟩, st1⟩, h1, h⟩ := bind_ok h
    obtain ⟨⟨⟨b1, b2, b3⟩, st2⟩, h2, h⟩ := bind_ok h
    cases h
    rw [recipe_keeps hL r _ _ st1 _ _ h2, recipe_keeps hL l d q st _ _ h1]
  | .quotient l r, d, q, st, x, st', h => by
    unfold ComponentLoader.recipe at h
    obtain ⟨⟨⟨a1, a2, a3⟩, st1⟩, h1, h⟩ := bind_ok h
    obtain ⟨⟨⟨b1, b2, b3⟩, st2⟩, h2, h⟩ := bind_ok h
    have h3 : st' = st2 := by cases b3 <;> cases h <;> rfl
    rw [h3, recipe_keeps hL r _ _ st1 _ _ h2, recipe_keeps hL l d q st _ _ h1]
  | .component name id, d, q, st, x, st', h => by
    unfold ComponentLoader.recipe at h
    obtain ⟨⟨a, st1⟩, h1, h⟩ := bind_ok h
    cases h
    exact hL _ _ _ _ h1

theorem recipe_view {L : ComponentLoader σ} (hL : L.Stable) : ∀ (e : SysExpr) (d : Nat) (q : Option Nat) (st : σ),
    (L.recipe e d q st).map (·.1) = getSystemRecipe (L.view st) e d q
  | .composition l r, d, q, st | .conjunction l r, d, q, st => by
    unfold ComponentLoader.recipe getSystemRecipe
    refine bind_map_fst (recipe_view hL l d q st) fun a st1 h1 => ?_
    obtain ⟨a1, a2, a3⟩ := a
    dsimp only
    rw [← recipe_keeps hL l d q st _ _ h1]
    exact bind_map_fst (recipe_view hL r a2 a3 st1) fun b st2 h2 => rfl
  | .quotient l r, d, q, st => by
    unfold ComponentLoader.recipe getSystemRecipe
    refine bind_map_fst (recipe_view hL l d q st) fun a st1 h1 => ?_
    obtain ⟨a1, a2, a3⟩ := a
    dsimp only
    rw [← recipe_keeps hL l d q st _ _ h1]
    refine bind_map_fst (recipe_view hL r a2 a3 st1) fun b st2 h2 => ?_
    obtain ⟨b1, b2, b3⟩ := b
    cases b3 <;> rfl
  | .component name id, d, q, st => by
    unfold ComponentLoader.recipe getSystemRecipe
    exact bind_map_fst rfl fun a st1 h1 => rfl

/-- a query that does not save is answered about what is seen -/
theorem exec_view {L : ComponentLoader σ} (hL : L.Stable) (X : QueryEnv Z) (st : σ) {q : QueryExpr} (hq : q.saves = false) :
    (X.exec L st q).map (·.1) = X.run (L.view st) q := by
  cases q with
  | refinement e e' =>
    simp only [QueryEnv.exec, QueryEnv.run, QueryEnv.refinement]
    refine bind_map_fst (recipe_view hL e 0 none st) fun a st1 h1 => ?_
    obtain ⟨a1, a2, a3⟩ := a
    dsimp only
    rw [← recipe_keeps hL e 0 none st _ _ h1]
    refine bind_map_fst (recipe_view hL e' a2 a3 st1) fun b st2 h2 => ?_
    obtain ⟨b1, b2, b3⟩ := b
    dsimp only
    cases X.refinementOf a1 b1 b2 b3 <;> rfl
  | reachability e start goal =>
    simp only [QueryEnv.exec, QueryEnv.run]
    refine bind_map_fst (recipe_view hL e 0 none st) fun a st1 h1 => ?_
    obtain ⟨a1, a2, a3⟩ := a
    dsimp only
    cases X.reachabilityOf a1 a2 start goal <;> rfl
  | consistency e =>
    simp only [QueryEnv.exec, QueryEnv.run, QueryEnv.system]
    rw [bind_assoc]
    refine bind_map_fst (recipe_view hL e 0 none st) fun a st1 h1 => ?_
    obtain ⟨a1, a2, a3⟩ := a
    dsimp only
    cases X.systemOf a1 a2 a3 with
    | error => rfl
    | ok s =>
      obtain ⟨d, s⟩ := s
      rw [ok_bind, ok_bind]
      dsimp only
      cases s.precheck (X.checks d s) X.fuel <;> rfl
  | determinism e =>
    simp only [QueryEnv.exec, QueryEnv.run, QueryEnv.system]
    rw [bind_assoc]
    refine bind_map_fst (recipe_view hL e 0 none st) fun a st1 h1 => ?_
    obtain ⟨a1, a2, a3⟩ := a
    dsimp only
    cases X.systemOf a1 a2 a3 with
    | error => rfl
    | ok s =>
      obtain ⟨d, s⟩ := s
      rw [ok_bind, ok_bind]
      dsimp only
      cases s.checkDet (X.checks d s) X.fuel <;> rfl
  | getComponent e => cases hq
  | prune e => cases hq
  | implementation _ | specification _ | bisimMinim _ => rfl

theorem exec_keeps {τ : Type} {L : ComponentLoader σ} {ρ : σ → τ}
    (hL : ∀ st name c st', L.get st name = .ok (c, st') → ρ st' = ρ st) {X : QueryEnv Z} {st st' : σ} {q : QueryExpr}
    {A : QueryOutcome Z} (hq : q.saves = false) (h : X.exec L st q = .ok (A, st')) : ρ st' = ρ st := by
  cases q with
  | refinement e e' =>
    simp only [QueryEnv.exec] at h
    obtain ⟨⟨⟨a1, a2, a3⟩, st1⟩, h1, h⟩ := bind_ok h
    obtain ⟨⟨⟨b1, b2, b3⟩, st2⟩, h2, h⟩ := bind_ok h
    obtain ⟨o, _, h⟩ := bind_ok h
    cases h
    rw [recipe_keeps hL e' _ _ st1 _ _ h2, recipe_keeps hL e _ _ st _ _ h1]
  | reachability e start goal =>
    simp only [QueryEnv.exec] at h
    obtain ⟨⟨⟨a1, a2, a3⟩, st1⟩, h1, h⟩ := bind_ok h
    obtain ⟨o, _, h⟩ := bind_ok h
    cases h
    exact recipe_keeps hL e _ _ st _ _ h1
  | consistency e | determinism e =>
    simp only [QueryEnv.exec] at h
    obtain ⟨⟨⟨a1, a2, a3⟩, st1⟩, h1, h⟩ := bind_ok h
    obtain ⟨⟨d, s⟩, _, h⟩ := bind_ok h
    obtain ⟨o, _, h⟩ := bind_ok h
    cases h
    exact recipe_keeps hL e _ _ st _ _ h1
  | getComponent e | prune e => cases hq
  | implementation _ | specification _ | bisimMinim _ => cases h

/-- a query that saves: its answer is a component made from what is seen, and that component is then saved -/
theorem exec_saves {L : ComponentLoader σ} (hL : L.Stable) (X : QueryEnv Z) (st : σ) {q : QueryExpr} (hq : q.saves = true) :
    ∃ x : Res (Component × σ), X.exec L st q = (x >>= fun p => L.save p.2 p.1 >>= fun s => .ok (.getComponent p.1, s)) ∧
      X.run (L.view st) q = (x.map fun p => .getComponent p.1) ∧
      ∀ c st1, x = .ok (c, st1) → ∃ e y, L.recipe e 0 none st = .ok (y, st1) := by
  have key : ∀ (e : SysExpr) (b : Bool) (nm : Option String), ∃ x : Res (Component × σ),
      (L.recipe e 0 none st >>= fun p => X.systemOf p.1.1 p.1.2.1 p.1.2.2 >>= fun s => X.componentOf b s nm >>= fun c =>
        L.save p.2 c >>= fun s => Except.ok (QueryOutcome.getComponent (Z := Z) c, s)) =
        (x >>= fun p => L.save p.2 p.1 >>= fun s => .ok (.getComponent p.1, s)) ∧
      (X.system (L.view st) e >>= fun s => X.componentOf b s nm >>= fun c => Except.ok (QueryOutcome.getComponent (Z := Z) c)) =
        (x.map fun p => .getComponent p.1) ∧
      ∀ c st1, x = .ok (c, st1) → ∃ e y, L.recipe e 0 none st = .ok (y, st1) := by
    intro e b nm
    refine ⟨L.recipe e 0 none st >>= fun p => X.systemOf p.1.1 p.1.2.1 p.1.2.2 >>= fun s => X.componentOf b s nm >>= fun c =>
      .ok (c, p.2), ?_, ?_, ?_⟩
    · cases L.recipe e 0 none st with
      | error => rfl
      | ok p =>
        rw [ok_bind, ok_bind]
        cases X.systemOf p.1.1 p.1.2.1 p.1.2.2 with
        | error => rfl
        | ok s => rw [ok_bind, ok_bind]; cases X.componentOf b s nm <;> rfl
    · unfold QueryEnv.system
      rw [← recipe_view hL]
      cases L.recipe e 0 none st with
      | error => rfl
      | ok p =>
        obtain ⟨⟨a, b, c⟩, st1⟩ := p
        rw [ok_bind]
        show (X.systemOf a b c >>= _) = _
        dsimp only
        cases X.systemOf a b c with
        | error => rfl
        | ok s => rw [ok_bind, ok_bind]; cases X.componentOf _ s nm <;> rfl
    · intro c st1 h
      obtain ⟨p, h1, h⟩ := bind_ok h
      obtain ⟨s, h2, h⟩ := bind_ok h
      obtain ⟨c', h3, h⟩ := bind_ok h
      cases h
      exact ⟨e, p.1, h1⟩
  cases q with
  | getComponent e => exact key e.system false e.name
  | prune e => exact key e.system true e.name
  | _ => cases hq

/-! ## Projects -/

theorem enabled_name {F : Type} [ZoneLib F] {c c' : Component} {ins : List String} (h : makeInputEnabled F c ins = .ok c') :
    c'.name = c.name := by
  unfold makeInputEnabled at h
  obtain ⟨new, _, h⟩ := bind_ok h
  cases h
  rfl

theorem orPanic_ok_iff {α : Type} {x : Res α} {a : α} : orPanic x = .ok a ↔ x = .ok a := by
  cases x with
  | ok => simp [orPanic]
  | error e => cases e <;> simp [orPanic]

/-- `assert_eq!` on the name of what is found -/
def checkName (name : String) (c : Component) : Res Component :=
  if name = c.name then .ok c else .error (.panic "assertion failed")

theorem checkName_ok {name : String} {c c' : Component} : checkName name c = .ok c' ↔ c = c' ∧ c'.name = name := by
  unfold checkName
  split
  · rename_i h
    constructor
    · intro h1
      cases h1
      exact ⟨rfl, h.symm⟩
    · rintro ⟨rfl, _⟩
      rfl
  · rename_i h
    constructor
    · intro h1
      cases h1
    · rintro ⟨rfl, h1⟩
      exact absurd h1.symm h

/-- what a project gives for a name -/
theorem project_view (P : Project) (name : String) : (jsonLoader Z).view P name =
    match P.loaded.lookup name with
    | some c => checkName name c
    | none => P.read Z name >>= checkName name := by
  show (P.get Z name).map (·.1) = _
  unfold Project.get
  cases hl : P.loaded.lookup name with
  | some c' =>
    simp only [Option.isSome_some, if_true, ok_bind]
    unfold namedEntry checkName
    rw [hl]
    dsimp only
    by_cases hn : name = c'.name
    · rw [if_pos hn]; rfl
    · rw [if_neg hn]; rfl
  | none =>
    simp only [Option.isSome_none, Bool.false_eq_true, if_false]
    unfold Project.load
    cases P.read Z name with
    | error => rfl
    | ok c =>
      simp only [ok_bind]
      unfold namedEntry checkName
      rw [lookup_hmInsert, if_pos rfl]
      dsimp only
      by_cases hn : name = c.name
      · rw [if_pos hn]; rfl
      · rw [if_neg hn]; rfl

theorem project_get {P P' : Project} {name : String} {c : Component} (h : P.get Z name = .ok (c, P')) :
    (P.loaded.lookup name = some c ∧ P' = P) ∨
      (P.loaded.lookup name = none ∧ P.read Z name = .ok c ∧ P' = { P with loaded := hmInsert name c P.loaded }) := by
  unfold Project.get at h
  cases hl : P.loaded.lookup name with
  | some c' =>
    simp only [hl, Option.isSome_some, if_true, ok_bind] at h
    obtain ⟨c1, h1, h⟩ := bind_ok h
    cases h
    unfold namedEntry at h1
    rw [hl] at h1
    obtain ⟨rfl, _⟩ := checkName_ok.1 h1
    exact .inl ⟨rfl, rfl⟩
  | none =>
    simp only [hl, Option.isSome_none, Bool.false_eq_true, if_false] at h
    obtain ⟨P1, h1, h⟩ := bind_ok h
    obtain ⟨c1, h2, h⟩ := bind_ok h
    cases h
    obtain ⟨c2, h3, h1⟩ := bind_ok h1
    cases h1
    unfold namedEntry at h2
    rw [lookup_hmInsert, if_pos rfl] at h2
    obtain ⟨rfl, _⟩ := checkName_ok.1 h2
    exact .inr ⟨rfl, h3, rfl⟩

theorem read_checked {P : Project} {name : String} {c : Component} :
    (P.read Z name >>= checkName name) = .ok c ↔ InProject Z P.files P.spec.inputsOf name c := by
  unfold Project.read InProject
  constructor
  · intro h
    obtain ⟨c1, h1, h⟩ := bind_ok h
    obtain ⟨rfl, hn⟩ := checkName_ok.1 h
    cases hf : P.files name with
    | none => rw [hf] at h1; cases h1
    | some raw =>
      rw [hf] at h1
      dsimp only at h1
      obtain ⟨c0, h3, h4⟩ := bind_ok h1
      have h5 : c0.name = name := by
        rw [← hn]
        cases hi : P.spec.inputsOf c0.name with
        | none => rw [hi] at h4; cases h4; rfl
        | some ins => rw [hi] at h4; exact (enabled_name h4).symm
      refine ⟨raw, c0, rfl, orPanic_ok_iff.1 h3, h5, ?_⟩
      rw [h5] at h4
      cases hi : P.spec.inputsOf name with
      | none => rw [hi] at h4; cases h4; rfl
      | some ins => rw [hi] at h4; exact h4
  · rintro ⟨raw, c0, h1, h2, h3, h4⟩
    rw [h1]
    dsimp only
    rw [orPanic_ok_iff.2 h2, ok_bind, h3]
    cases hi : P.spec.inputsOf name with
    | none =>
      rw [hi] at h4
      dsimp only at h4 ⊢
      rw [ok_bind, h4]
      exact checkName_ok.2 ⟨rfl, h3⟩
    | some ins =>
      rw [hi] at h4
      dsimp only at h4 ⊢
      rw [h4, ok_bind]
      exact checkName_ok.2 ⟨rfl, by rw [enabled_name h4]; exact h3⟩

/-- a project just opened shows its files -/
theorem view_fresh {P : Project} (h : P.loaded = []) {name : String} {c : Component} :
    (jsonLoader Z).view P name = .ok c ↔ InProject Z P.files P.spec.inputsOf name c := by
  rw [project_view, h]
  exact read_checked

theorem project_stable : (jsonLoader Z).Stable := by
  intro P name c P' h
  rcases project_get h with ⟨_, rfl⟩ | ⟨h1, h2, rfl⟩
  · rfl
  · funext n
    rw [project_view, project_view]
    dsimp only
    rw [lookup_hmInsert]
    by_cases hn : n = name
    · subst hn
      rw [if_pos rfl, h1, h2]
      rfl
    · rw [if_neg hn]
      rfl

theorem project_keeps {P P' : Project} {name : String} {c : Component} (h : P.get Z name = .ok (c, P')) :
    (P'.files, P'.spec) = (P.files, P.spec) := by
  rcases project_get h with ⟨_, rfl⟩ | ⟨_, _, rfl⟩ <;> rfl

theorem project_save {P P' : Project} {c : Component} : P.save c = .ok P' ↔ ∃ raw, c.write = .ok raw ∧
    P' = { P with files := fun n => if n = c.name then some raw else P.files n, loaded := hmInsert c.name c P.loaded } := by
  unfold Project.save
  constructor
  · intro h
    obtain ⟨raw, h1, h⟩ := bind_ok h
    cases h
    exact ⟨raw, orPanic_ok_iff.1 h1, rfl⟩
  · rintro ⟨raw, h1, rfl⟩
    rw [orPanic_ok_iff.2 h1]
    rfl

theorem project_save_view {P P' : Project} {c : Component} (h : P.save c = .ok P') (name : String) :
    (jsonLoader Z).view P' name = if name = c.name then .ok c else (jsonLoader Z).view P name := by
  obtain ⟨raw, h1, rfl⟩ := project_save.1 h
  rw [project_view, project_view]
  dsimp only
  rw [lookup_hmInsert]
  by_cases hn : name = c.name
  · rw [if_pos hn, if_pos hn]
    exact checkName_ok.2 ⟨rfl, hn.symm⟩
  · rw [if_neg hn, if_neg hn]
    cases hl : P.loaded.lookup name with
    | some c' => rfl
    | none =>
      dsimp only
      unfold Project.read
      dsimp only
      rw [if_neg hn]

/-! ## Runs -/

theorem seenAfter_cons (v : String → Res Component) (A : QueryOutcome Z) (As : List (QueryOutcome Z)) :
    seenAfter v (A :: As) = seenAfter (seenAfter v [A]) As := by
  funext n
  unfold seenAfter
  cases A with
  | getComponent c =>
    simp only [lastSaved]
    cases lastSaved As n with
    | some c' => rfl
    | none => rfl
  | _ =>
    simp only [lastSaved]

theorem filesAfter_cons (f : String → Option RawComponent) (A : QueryOutcome Z) (As : List (QueryOutcome Z)) :
    filesAfter f (A :: As) = filesAfter (filesAfter f [A]) As := by
  funext n
  unfold filesAfter
  cases A with
  | getComponent c =>
    simp only [lastSaved]
    cases lastSaved As n with
    | some c' => rfl
    | none => rfl
  | _ =>
    simp only [lastSaved]

theorem seenAfter_nil (v : String → Res Component) : seenAfter (Z := Z) v [] = v := rfl

theorem answersInTurn_cons {v : String → Res Component} {X : QueryEnv Z} {q : QueryExpr} {qs : List (QueryEnv Z × QueryExpr)}
    {A : QueryOutcome Z} {As : List (QueryOutcome Z)} : AnswersInTurn v ((X, q) :: qs) (A :: As) ↔
      X.run v q = .ok A ∧ (∀ c, A = .getComponent c → ∃ raw, c.write = .ok raw) ∧ AnswersInTurn (seenAfter v [A]) qs As := by
  constructor
  · intro h
    refine ⟨h.answers 0 (by simp) (by simp), fun c hc => h.written c (by simp [hc]), ⟨by simpa using h.length, ?_, ?_⟩⟩
    · intro i hi hi'
      have := h.answers (i + 1) (by simpa using hi) (by simpa using hi')
      rw [List.take_succ_cons, seenAfter_cons] at this
      exact this
    · exact fun c hc => h.written c (by simp [hc])
  · rintro ⟨h1, h2, h3⟩
    refine ⟨by simpa using h3.length, ?_, ?_⟩
    · intro i hi hi'
      cases i with
      | zero => exact h1
      | succ i =>
        have := h3.answers i (by simpa using hi) (by simpa using hi')
        rw [← seenAfter_cons v A] at this
        exact this
    · intro c hc
      rcases List.mem_cons.1 hc with hc | hc
      · exact h2 c hc.symm
      · exact h3.written c hc

theorem run_not_saved {X : QueryEnv Z} {v : String → Res Component} {q : QueryExpr} {c : Component} (hq : q.saves = false) :
    X.run v q ≠ .ok (.getComponent c) := by
  intro h
  cases q with
  | refinement e e' =>
    simp only [QueryEnv.run, QueryEnv.refinement, QueryEnv.refinementOf] at h
    obtain ⟨_, _, h⟩ := bind_ok h
    obtain ⟨_, _, h⟩ := bind_ok h
    obtain ⟨_, _, h⟩ := bind_ok h
    obtain ⟨_, _, h⟩ := bind_ok h
    obtain ⟨_, _, h⟩ := bind_ok h
    obtain ⟨_, _, h⟩ := bind_ok h
    cases h
  | reachability e start goal =>
    simp only [QueryEnv.run, QueryEnv.reachabilityOf] at h
    obtain ⟨_, _, h⟩ := bind_ok h
    obtain ⟨_, _, h⟩ := bind_ok h
    obtain ⟨_, _, h⟩ := bind_ok h
    cases h
  | consistency e | determinism e =>
    simp only [QueryEnv.run] at h
    obtain ⟨_, _, h⟩ := bind_ok h
    obtain ⟨_, _, h⟩ := bind_ok h
    cases h
  | getComponent e | prune e => cases hq
  | implementation _ | specification _ | bisimMinim _ => cases h

/-- one query on a project -/
theorem exec_project {X : QueryEnv Z} {P P' : Project} {q : QueryExpr} {A : QueryOutcome Z}
    (h : X.exec (jsonLoader Z) P q = .ok (A, P')) :
    X.run ((jsonLoader Z).view P) q = .ok A ∧ (∀ c, A = .getComponent c → ∃ raw, c.write = .ok raw) ∧
      (jsonLoader Z).view P' = seenAfter ((jsonLoader Z).view P) [A] ∧ P'.files = filesAfter P.files [A] ∧ P'.spec = P.spec := by
  by_cases hq : q.saves = true
  · obtain ⟨x, h1, h2, h3⟩ := exec_saves (L := jsonLoader Z) project_stable X P hq
    rw [h1] at h
    obtain ⟨⟨c, P1⟩, hx, h⟩ := bind_ok h
    obtain ⟨P2, hs, h⟩ := bind_ok h
    cases h
    obtain ⟨e, y, hr⟩ := h3 c P1 hx
    have e1 := recipe_keeps (L := jsonLoader Z) (fun _ _ _ _ => project_stable _ _ _ _) _ _ _ _ _ _ hr
    have e2 := recipe_keeps (L := jsonLoader Z) (ρ := fun P : Project => (P.files, P.spec))
      (fun _ _ _ _ => project_keeps) _ _ _ _ _ _ hr
    obtain ⟨e3, e4⟩ := Prod.mk.injEq .. ▸ e2
    obtain ⟨raw, hw, hP⟩ := project_save.1 hs
    refine ⟨by rw [h2, hx]; rfl, fun c' hc => by cases hc; exact ⟨raw, hw⟩, ?_, ?_, ?_⟩
    · funext n
      rw [project_save_view hs n, e1]
      unfold seenAfter
      simp only [lastSaved]
      by_cases hn : n = c.name
      · rw [if_pos hn, if_pos hn.symm]
      · rw [if_neg hn, if_neg fun h => hn h.symm]
    · funext n
      rw [hP]
      dsimp only
      rw [e3]
      unfold filesAfter
      simp only [lastSaved]
      by_cases hn : n = c.name
      · rw [if_pos hn, if_pos hn.symm]
        dsimp only
        rw [hw]
        rfl
      · rw [if_neg hn, if_neg fun h => hn h.symm]
    · rw [hP]
      exact e4
  · have hq : q.saves = false := by simpa using hq
    have h1 := exec_view (L := jsonLoader Z) project_stable X P hq
    rw [h] at h1
    have e1 := exec_keeps (L := jsonLoader Z) (fun _ _ _ _ => project_stable _ _ _ _) hq h
    have e2 := exec_keeps (L := jsonLoader Z) (ρ := fun P : Project => (P.files, P.spec)) (fun _ _ _ _ => project_keeps) hq h
    obtain ⟨e3, e4⟩ := Prod.mk.injEq .. ▸ e2
    have hA : ∀ c, A ≠ .getComponent c := fun c hc => run_not_saved hq (h1.symm.trans (by rw [hc]; rfl))
    have hl : ∀ n, lastSaved [A] n = none := by
      intro n
      cases A with
      | getComponent c => exact absurd rfl (hA c)
      | _ => rfl
    refine ⟨h1.symm, fun c hc => absurd hc (hA c), ?_, ?_, e4⟩
    · rw [e1]
      funext n
      unfold seenAfter
      rw [hl]
    · rw [e3]
      funext n
      unfold filesAfter
      rw [hl]

theorem exec_project_ok {X : QueryEnv Z} {P : Project} {q : QueryExpr} {A : QueryOutcome Z}
    (h : X.run ((jsonLoader Z).view P) q = .ok A) (hw : ∀ c, A = .getComponent c → ∃ raw, c.write = .ok raw) :
    ∃ P', X.exec (jsonLoader Z) P q = .ok (A, P') := by
  by_cases hq : q.saves = true
  · obtain ⟨x, h1, h2, h3⟩ := exec_saves (L := jsonLoader Z) project_stable X P hq
    rw [h2] at h
    cases x with
    | error => cases h
    | ok p =>
      cases h
      obtain ⟨raw, hr⟩ := hw _ rfl
      exact ⟨_, by rw [h1, ok_bind, show (jsonLoader Z).save p.2 p.1 = _ from project_save.2 ⟨raw, hr, rfl⟩]; rfl⟩
  · have hq : q.saves = false := by simpa using hq
    have h1 := exec_view (L := jsonLoader Z) project_stable X P hq
    rw [h] at h1
    cases he : X.exec (jsonLoader Z) P q with
    | error e => rw [he] at h1; cases h1
    | ok p =>
      rw [he] at h1
      obtain ⟨A', P'⟩ := p
      cases h1
      exact ⟨P', rfl⟩

theorem session_project : ∀ {qs : List (QueryEnv Z × QueryExpr)} {As : List (QueryOutcome Z)} {P P' : Project},
    session (jsonLoader Z) qs P = .ok (As, P') →
      AnswersInTurn ((jsonLoader Z).view P) qs As ∧ (jsonLoader Z).view P' = seenAfter ((jsonLoader Z).view P) As ∧
      P'.files = filesAfter P.files As ∧ P'.spec = P.spec
  | [], As, P, P', h => by
    cases h
    exact ⟨⟨rfl, fun i h => by simp at h, fun c hc => by simp at hc⟩, rfl, rfl, rfl⟩
  | (X, q) :: qs, As, P, P', h => by
    unfold session at h
    obtain ⟨⟨A, P1⟩, h1, h⟩ := bind_ok h
    obtain ⟨⟨As', P2⟩, h2, h⟩ := bind_ok h
    cases h
    obtain ⟨a1, a2, a3, a4, a5⟩ := exec_project (orPanic_ok_iff.1 h1)
    obtain ⟨b1, b2, b3, b4⟩ := session_project h2
    rw [a3] at b1 b2
    exact ⟨answersInTurn_cons.2 ⟨a1, a2, b1⟩, by rw [seenAfter_cons]; exact b2, by rw [filesAfter_cons, ← a4]; exact b3,
      b4.trans a5⟩

theorem session_project_ok : ∀ {qs : List (QueryEnv Z × QueryExpr)} {As : List (QueryOutcome Z)} {P : Project},
    AnswersInTurn ((jsonLoader Z).view P) qs As → ∃ P', session (jsonLoader Z) qs P = .ok (As, P')
  | [], As, P, h => by
    have : As = [] := List.length_eq_zero_iff.1 h.length
    subst this
    exact ⟨P, rfl⟩
  | (X, q) :: qs, [], P, h => by
    have := h.length
    simp at this
  | (X, q) :: qs, A :: As, P, h => by
    obtain ⟨h1, h2, h3⟩ := answersInTurn_cons.1 h
    obtain ⟨P1, he⟩ := exec_project_ok h1 h2
    rw [← (exec_project he).2.2.1] at h3
    obtain ⟨P2, hs⟩ := session_project_ok h3
    refine ⟨P2, ?_⟩
    unfold session
    rw [he]
    simp only [orPanic, ok_bind, hs]

theorem view_ok {L : ComponentLoader σ} {st : σ} {name : String} {c : Component} :
    L.view st name = .ok c ↔ ∃ st', L.get st name = .ok (c, st') := by
  unfold ComponentLoader.view
  cases L.get st name with
  | error => simp [Except.map]
  | ok p => obtain ⟨a, b⟩ := p; simp [Except.map]

theorem inProject_unique {files : String → Option RawComponent} {inputs : String → Option (List String)} {name : String}
    {c c' : Component} (h : InProject Z files inputs name c) (h' : InProject Z files inputs name c') : c = c' := by
  obtain ⟨raw, c0, h1, h2, h3, h4⟩ := h
  obtain ⟨raw', c0', h1', h2', h3', h4'⟩ := h'
  rw [h1] at h1'
  cases h1'
  rw [h2] at h2'
  cases h2'
  cases hi : inputs name with
  | none => rw [hi] at h4 h4'; rw [h4, h4']
  | some ins =>
    rw [hi] at h4 h4'
    dsimp only at h4 h4'
    rw [h4] at h4'
    cases h4'
    rfl

theorem inProject_name {files : String → Option RawComponent} {inputs : String → Option (List String)} {name : String}
    {c : Component} (h : InProject Z files inputs name c) : c.name = name := by
  obtain ⟨raw, c0, h1, h2, h3, h4⟩ := h
  cases hi : inputs name with
  | none => rw [hi] at h4; rw [h4, h3]
  | some ins => rw [hi] at h4; rw [enabled_name h4, h3]

end Reveaal
