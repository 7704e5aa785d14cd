import Verif.Lemmas.Project
import Verif.Props.C53
import Verif.Props.C64

/-!
# C65: a run of several queries

Every query of a run is answered about the components in the files of the project, input-enabled for the declared inputs,
except that components saved by earlier queries of the run replace those in the files.  Nothing else carries over from one
query to the next, in particular not which components have been loaded.
-/

namespace Reveaal
open ZoneLib

variable {Z : Nat → Type} [∀ d, ZoneLib (Z d)]

/-- **C65 (a run on a folder).** The queries of a run on a project are answered, with these answers, exactly if they are
answers to the queries taken one by one, where each query sees the components in the files of the project, input-enabled
for the declared inputs, except those saved by earlier queries of the run, and if what is saved can be written.
Afterwards the files that were saved contain what was saved last, and the other files are unchanged. -/
theorem C65_session {files : String → Option RawComponent} {text : List Char} {P : Project}
    (hP : openProject files text = .ok P) (qs : List (QueryEnv Z × QueryExpr)) (As : List (QueryOutcome Z)) :
    ∃ v : String → Res Component, (∀ name c, v name = .ok c ↔ InProject Z files P.spec.inputsOf name c) ∧
      ((∃ P', session (jsonLoader Z) qs P = .ok (As, P')) ↔ AnswersInTurn v qs As) ∧
      ∀ P', session (jsonLoader Z) qs P = .ok (As, P') → P'.files = filesAfter files As := by
  unfold openProject at hP
  obtain ⟨spec, h1, hP⟩ := bind_ok hP
  cases hP
  refine ⟨(jsonLoader Z).view ⟨files, [], spec⟩, fun name c => view_fresh rfl, ⟨?_, session_project_ok⟩, ?_⟩
  · rintro ⟨P', h⟩
    exact (session_project h).1
  · intro P' h
    exact (session_project h).2.2.1

/-- **C65 (what carries over).** If no query of the run saves a component, then each query is answered as if it were the
only one, whatever their order, and the files are unchanged. -/
theorem C65_independent {files : String → Option RawComponent} {text : List Char} {P : Project}
    (hP : openProject files text = .ok P) (qs : List (QueryEnv Z × QueryExpr)) (hq : ∀ p ∈ qs, p.2.saves = false)
    (As : List (QueryOutcome Z)) :
    ((∃ P', session (jsonLoader Z) qs P = .ok (As, P')) ↔
      List.Forall₂ (fun p A => ∃ P', session (jsonLoader Z) [p] P = .ok ([A], P')) qs As) ∧
    ∀ P', session (jsonLoader Z) qs P = .ok (As, P') → P'.files = files := by
  obtain ⟨v, _, h2, h3⟩ := C65_session (Z := Z) hP qs As
  have h1 : ∀ p A, (∃ P', session (jsonLoader Z) [p] P = .ok ([A], P')) ↔ AnswersInTurn ((jsonLoader Z).view P) [p] [A] :=
    fun p A => ⟨fun ⟨P', h⟩ => (session_project h).1, session_project_ok⟩
  have h0 : (∃ P', session (jsonLoader Z) qs P = .ok (As, P')) ↔ AnswersInTurn ((jsonLoader Z).view P) qs As :=
    ⟨fun ⟨P', h⟩ => (session_project h).1, session_project_ok⟩
  have hn : ∀ (qs : List (QueryEnv Z × QueryExpr)) (As : List (QueryOutcome Z)) (w : String → Res Component),
      (∀ p ∈ qs, p.2.saves = false) → (AnswersInTurn w qs As ↔ List.Forall₂ (fun p A => AnswersInTurn w [p] [A]) qs As) ∧
      (AnswersInTurn w qs As → ∀ n, lastSaved As n = none) := by
    intro qs
    induction qs with
    | nil =>
      intro As w _
      refine ⟨⟨fun h => ?_, fun h => ?_⟩, fun h => ?_⟩
      · rw [List.length_eq_zero_iff.1 h.length]; exact .nil
      · cases h; exact ⟨rfl, fun i h => by simp at h, fun c hc => by simp at hc⟩
      · rw [List.length_eq_zero_iff.1 h.length]; exact fun n => rfl
    | cons p qs ih =>
      intro As w hp
      obtain ⟨X, q⟩ := p
      have hq := hp (X, q) (by simp)
      have hs : ∀ A, X.run w q = .ok A → ∀ n, lastSaved [A] n = none := by
        intro A hA n
        cases A with
        | getComponent c => exact absurd hA (run_not_saved hq)
        | _ => rfl
      have hse : ∀ A, X.run w q = .ok A → seenAfter w [A] = w := by
        intro A hA
        funext n
        unfold seenAfter
        rw [hs A hA n]
      cases As with
      | nil =>
        refine ⟨⟨fun h => ?_, fun h => ?_⟩, fun h => ?_⟩
        · have := h.length; simp at this
        · cases h
        · have := h.length; simp at this
      | cons A As =>
        have one : AnswersInTurn w [(X, q)] [A] ↔ X.run w q = .ok A ∧ ∀ c, A = .getComponent c → ∃ raw, c.write = .ok raw := by
          rw [answersInTurn_cons]
          exact ⟨fun h => ⟨h.1, h.2.1⟩, fun h => ⟨h.1, h.2, ⟨rfl, fun i h => by simp at h, fun c hc => by simp at hc⟩⟩⟩
        refine ⟨⟨fun h => ?_, fun h => ?_⟩, fun h => ?_⟩
        · obtain ⟨a1, a2, a3⟩ := answersInTurn_cons.1 h
          rw [hse A a1] at a3
          exact .cons (one.2 ⟨a1, a2⟩) ((ih As w fun p hq => hp p (by simp [hq])).1.1 a3)
        · cases h with
          | cons h4 h5 =>
            obtain ⟨a1, a2⟩ := one.1 h4
            refine answersInTurn_cons.2 ⟨a1, a2, ?_⟩
            rw [hse A a1]
            exact (ih As w fun p hq => hp p (by simp [hq])).1.2 h5
        · obtain ⟨a1, a2, a3⟩ := answersInTurn_cons.1 h
          rw [hse A a1] at a3
          have h6 := (ih As w fun p hq => hp p (by simp [hq])).2 a3
          intro n
          have h7 := hs A a1 n
          cases A with
          | getComponent c => exact absurd a1 (run_not_saved hq)
          | _ => exact h6 n
  refine ⟨?_, ?_⟩
  · rw [h0, (hn qs As _ hq).1]
    constructor
    · exact fun h => h.imp fun p A h => (h1 p A).2 h
    · exact fun h => h.imp fun p A h => (h1 p A).1 h
  · intro P' h
    rw [h3 P' h]
    funext n
    unfold filesAfter
    rw [(hn qs As _ hq).2 (session_project h).1 n]

/-- **C65 (opening the project again).** A component that was saved under a name for which no inputs are declared, and that can
be written faithfully (see C53), is found by a later run under that name: a component with the same meaning. -/
theorem C65_reopened_partial {files : String → Option RawComponent} {text : List Char} {P P' Q : Project}
    (hP : openProject files text = .ok P) {qs : List (QueryEnv Z × QueryExpr)} {As : List (QueryOutcome Z)}
    (h : session (jsonLoader Z) qs P = .ok (As, P')) (hQ : openProject P'.files text = .ok Q)
    {name : String} {c : Component} (hc : lastSaved As name = some c) (hp : c.Portable)
    (hi : P.spec.inputsOf name = none) :
    ∃ c', InProject Z Q.files Q.spec.inputsOf name c' ∧ c.SameMeaning c' := by
  have hf := (session_project h).2.2.1
  unfold openProject at hP hQ
  obtain ⟨spec, h1, hP⟩ := bind_ok hP
  obtain ⟨spec', h1', hQ⟩ := bind_ok hQ
  rw [h1] at h1'
  cases h1'
  cases hP
  cases hQ
  obtain ⟨raw, c', h2, h3, h4, h5, _⟩ := C53_loaded_partial hp
  have hn : ∀ (As : List (QueryOutcome Z)) (c : Component), lastSaved As name = some c → c.name = name := by
    intro As
    induction As with
    | nil => intro c h; cases h
    | cons A As ih =>
      intro c h
      cases A with
      | getComponent c1 =>
        simp only [lastSaved] at h
        cases hl : lastSaved As name with
        | some c2 => rw [hl] at h; cases h; exact ih _ hl
        | none =>
          rw [hl] at h
          dsimp only at h
          split at h
          · cases h; assumption
          · cases h
      | _ => exact ih _ h
  refine ⟨c', ⟨raw, c', ?_, h3, h4.trans (hn As c hc), ?_⟩, h5⟩
  · show P'.files name = some raw
    rw [hf]
    unfold filesAfter
    rw [hc]
    dsimp only
    rw [h2]
    rfl
  · show match spec.inputsOf name with
      | some ins => _
      | none => _
    rw [show spec.inputsOf name = none from hi]

theorem container_stable : containerLoader.Stable := by
  intro m name c m' h
  unfold containerLoader at h
  obtain ⟨_, _, h⟩ := bind_ok h
  cases h
  rfl

theorem container_view (m : List (String × Component)) : containerLoader.view m = namedEntry m := by
  funext n
  unfold ComponentLoader.view containerLoader
  dsimp only
  cases namedEntry m n <;> rfl

theorem container_keeps {m m' : List (String × Component)} {name : String} {c : Component}
    (h : containerLoader.get m name = .ok (c, m')) : id m' = id m := by
  unfold containerLoader at h
  obtain ⟨_, _, h⟩ := bind_ok h
  cases h
  rfl

/-- **C65 (the server).** A query on the components of a request is answered about these components, and does not change
them: what a query saves is not seen by other queries. -/
theorem C65_server (X : QueryEnv Z) (m : List (String × Component)) (q : QueryExpr) (A : QueryOutcome Z)
    (m' : List (String × Component)) :
    X.exec containerLoader m q = .ok (A, m') ↔ m' = m ∧ X.run (namedEntry m) q = .ok A := by
  by_cases hq : q.saves = true
  · obtain ⟨x, h1, h2, h3⟩ := exec_saves container_stable X m hq
    rw [container_view] at h2
    rw [h1, h2]
    cases x with
    | error => exact ⟨fun h => (by cases h), fun h => (by cases h.2)⟩
    | ok p =>
      obtain ⟨c, m1⟩ := p
      obtain ⟨e, y, hr⟩ := h3 c m1 rfl
      have := recipe_keeps (L := containerLoader) (ρ := id) (fun _ _ _ _ => container_keeps) _ _ _ _ _ _ hr
      cases this
      constructor
      · intro h
        cases h
        exact ⟨rfl, rfl⟩
      · rintro ⟨rfl, h⟩
        cases h
        rfl
  · have hq : q.saves = false := by simpa using hq
    have h1 := exec_view container_stable X m hq
    rw [container_view] at h1
    rw [← h1]
    constructor
    · intro h
      exact ⟨exec_keeps (L := containerLoader) (ρ := id) (fun _ _ _ _ => container_keeps) hq h, by rw [h]; rfl⟩
    · rintro ⟨rfl, h⟩
      cases he : X.exec containerLoader m' q with
      | error => rw [he] at h; cases h
      | ok p =>
        obtain ⟨A', m1⟩ := p
        have := exec_keeps (L := containerLoader) (ρ := id) (fun _ _ _ _ => container_keeps) hq he
        cases this
        rw [he] at h
        cases h
        rfl

theorem xml_stable : xmlLoader.Stable := by
  intro m name c m' h
  unfold xmlLoader at h
  obtain ⟨_, _, h⟩ := bind_ok h
  cases h
  rfl

/-- **C65 (XML projects).** A query that saves a component is never answered on an XML project. -/
theorem C65_xml (X : QueryEnv Z) (m : List (String × Component)) (q : QueryExpr) (hq : q.saves = true)
    (x : QueryOutcome Z × List (String × Component)) : X.exec xmlLoader m q ≠ .ok x := by
  intro h
  obtain ⟨y, h1, _, _⟩ := exec_saves xml_stable X m hq
  rw [h1] at h
  obtain ⟨p, _, h⟩ := bind_ok h
  cases h

/-- **C65, violated.** Queries stored in the project are never run: they are asked for with an empty query text, and the
empty text is refused. -/
theorem C65_violated_own_queries (stored qs : List QueryExpr) : cliQueries [] stored ≠ .ok qs := by
  intro h
  unfold cliQueries at h
  obtain ⟨_, h1, _⟩ := bind_ok h
  have : parseQueries [] = .error (.err "Could not parse as rule") := by rfl
  rw [this] at h1
  cases h1

/-! ## Cases -/

/-- a folder with the files of `A`, `B` and `C` -/
def exFiles : String → Option RawComponent := fun n =>
  if n = "A" then exClient.write.toOption else if n = "B" then (exServer 1).write.toOption
  else if n = "C" then ({ exServer 3 with name := "C" } : Component).write.toOption else none

def exDeclarations : List Char := "// the system\nsystem A, B, S;\n\nIO A {out!}\nIO S {in?, out!}".toList

def exProject : Project := getOk (openProject exFiles exDeclarations) (by decide +kernel)

theorem exProject_ok : openProject exFiles exDeclarations = .ok exProject := getOk_eq _

/-- Does `A` refine `B`, does `S` refine `A`, does `A` refine `C`?  There is no file for `S`, but `A` is saved as `S`. -/
def exRun : List (QueryEnv FedD × QueryExpr) :=
  [(plainQueries true, .refinement (.component "A" none) (.component "B" none)),
   (plainQueries false, .getComponent ⟨.component "A" none, some "S"⟩),
   (plainQueries true, .refinement (.component "S" none) (.component "A" none)),
   (plainQueries false, .refinement (.component "A" none) (.component "C" none))]

def shape : QueryOutcome FedD → String
  | .refinement _ none => "yes"
  | .refinement _ (some _) => "no"
  | .getComponent c => c.name
  | _ => "other"

def shapes (x : Res (List (QueryOutcome FedD) × Project)) : Option (List String) :=
  match x with
  | .ok p => some (p.1.map shape)
  | .error _ => none

theorem shapes_some {x : Res (List (QueryOutcome FedD) × Project)} {l : List String} (h : shapes x = some l) :
    ∃ As P, x = .ok (As, P) ∧ As.map shape = l := by
  unfold shapes at h
  split at h
  · rename_i p
    obtain ⟨As, P⟩ := p
    injection h with h
    exact ⟨As, P, rfl, h⟩
  · cases h

/-- The inputs declared for `S` are read, and the run is answered. -/
example : exProject.spec.inputsOf "S" = some ["in"] ∧ ∃ As P', session (jsonLoader FedD) exRun exProject = .ok (As, P') ∧
    As.map shape = ["yes", "S", "yes", "no"] := ⟨by decide +kernel, shapes_some (by decide +kernel)⟩

/-- Without the query that saves `S` it is not. -/
example : shapes (session (jsonLoader FedD) (exRun.drop 2) exProject) = none := by decide +kernel

/-- Queries that do not save. -/
example : (∀ p ∈ exRun.take 1 ++ exRun.drop 3, p.2.saves = false) ∧
    ∃ As P', session (jsonLoader FedD) (exRun.take 1 ++ exRun.drop 3) exProject = .ok (As, P') ∧ As.map shape = ["yes", "no"] := by
  refine ⟨?_, shapes_some (by decide +kernel)⟩
  intro p hp
  simp only [exRun, List.take, List.drop, List.cons_append, List.nil_append, List.mem_cons, List.not_mem_nil, or_false] at hp
  rcases hp with rfl | rfl <;> rfl

/-- What is saved as `T` can be written faithfully; no inputs are declared for `T`. -/
def exSaveT : List (QueryEnv FedD × QueryExpr) := [(plainQueries false, .getComponent ⟨.component "B" none, some "T"⟩)]

def exSavedT : Component := ⟨"T", ⟨[], [("y", 1)]⟩, [⟨"M0", none, .initial, "NORMAL"⟩],
  [⟨"E0", "M0", "M0", .output, some (.ge (.var "y") (.int 1)), some [⟨"y", .int 0⟩], "out"⟩]⟩

def onlySaved : Res (List (QueryOutcome FedD) × Project) → Option Component
  | .ok ([.getComponent c], _) => some c
  | _ => none

theorem onlySaved_some {x : Res (List (QueryOutcome FedD) × Project)} {c : Component} (h : onlySaved x = some c) :
    ∃ P, x = .ok ([.getComponent c], P) := by
  unfold onlySaved at h
  split at h
  · injection h with h
    subst h
    exact ⟨_, rfl⟩
  · cases h

theorem saved_T : onlySaved (session (jsonLoader FedD) exSaveT exProject) = some exSavedT := by decide +kernel

theorem exSavedT_portable : exSavedT.Portable := by
  have ny : IsName "y" := isName_of (c := 'y') (cs := []) (by decide +kernel) (by decide)
  constructor
  · intro n hn
    rw [List.mem_singleton.1 hn]
    exact ⟨by decide +kernel, by decide +kernel, by decide +kernel, by decide +kernel, by decide +kernel⟩
  · decide +kernel
  · rfl
  · decide +kernel
  · intro l hl
    rw [List.mem_singleton.1 hl]
    intro b hb
    cases hb
  · decide +kernel
  · intro e he
    rw [List.mem_singleton.1 he]
    intro b hb
    cases hb
    exact ⟨ny, by decide, by decide⟩
  · intro e he
    rw [List.mem_singleton.1 he]
    intro b hb
    cases hb
    refine ⟨by simp, fun u hu => ?_⟩
    rw [List.mem_singleton.1 hu]
    exact ⟨ny, .inr ⟨0, rfl, by decide, by decide⟩⟩
  · decide +kernel

/-- It is found when the project is opened again. -/
example : ∃ P' Q c', (∃ As, session (jsonLoader FedD) exSaveT exProject = .ok (As, P')) ∧ openProject P'.files exDeclarations = .ok Q ∧
    InProject FedD Q.files Q.spec.inputsOf "T" c' ∧ exSavedT.SameMeaning c' := by
  obtain ⟨P', h⟩ := onlySaved_some saved_T
  have hQ : openProject P'.files exDeclarations = .ok ⟨P'.files, [], exProject.spec⟩ := by
    have := exProject_ok
    unfold openProject at this ⊢
    obtain ⟨spec, h1, h2⟩ := bind_ok this
    rw [h1, ok_bind]
    cases h2
    rfl
  obtain ⟨c', h1, h2⟩ := C65_reopened_partial exProject_ok h hQ (name := "T") (c := exSavedT) rfl exSavedT_portable
    (by decide +kernel)
  exact ⟨P', _, c', ⟨_, h⟩, hQ, h1, h2⟩

/-! ## What is false -/

/-- `A` with the guard `(x>=3 && x<=4) || x<=1` -/
def exBroken : RawComponent := ⟨"A", "clock x;", [⟨"L0", [], "INITIAL", "NORMAL"⟩],
  [⟨"e", "L0", "L0", "OUTPUT", "(x>=3 && x<=4) || x<=1".toList, [], "a"⟩]⟩

def exBrokenFiles : String → Option RawComponent := fun n => if n = "A" then some exBroken else none

def exBrokenText : List Char := "system A;".toList

def saveBroken : List (QueryEnv FedD × QueryExpr) := [(plainQueries false, .getComponent ⟨.component "A" none, some "S"⟩)]
def askBroken : List (QueryEnv FedD × QueryExpr) := [(plainQueries false, .refinement (.component "A" none) (.component "S" none))]

def brokenStart : Project := ⟨exBrokenFiles, [], ⟨["A"], [], []⟩⟩

theorem brokenStart_ok : openProject exBrokenFiles exBrokenText = .ok brokenStart := by rfl

def exSavedS : Component := ⟨"S", ⟨[], [("x", 1)]⟩, [⟨"L0", none, .initial, "NORMAL"⟩],
  [⟨"E0", "L0", "L0", .output, some (.or (.and (.ge (.var "x") (.int 3)) (.le (.var "x") (.int 4))) (.le (.var "x") (.int 1))),
    none, "a"⟩]⟩

theorem broken_saved : onlySaved (session (jsonLoader FedD) saveBroken brokenStart) = some exSavedS := by decide +kernel
/-- the files afterwards -/
def brokenFiles : String → Option RawComponent := fun n => if n = "S" then exSavedS.write.toOption else exBrokenFiles n

theorem broken_files : filesAfter exBrokenFiles [QueryOutcome.getComponent (Z := FedD) exSavedS] = brokenFiles := by
  funext n
  unfold filesAfter brokenFiles lastSaved lastSaved
  dsimp only
  by_cases h : n = "S"
  · rw [if_pos h, if_pos (show exSavedS.name = n from h.symm)]
  · rw [if_neg h, if_neg (fun h' : exSavedS.name = n => h h'.symm)]

theorem broken_before : shapes (session (jsonLoader FedD) askBroken ⟨brokenFiles, [("S", exSavedS)], ⟨["A"], [], []⟩⟩) = some ["yes"] := by
  decide +kernel
theorem broken_after : shapes (session (jsonLoader FedD) askBroken ⟨brokenFiles, [], ⟨["A"], [], []⟩⟩) = some ["no"] := by
  decide +kernel
/-- **C65, violated.** In the run in which `A` is saved as `S`, `A` refines `S`.  When the project is opened again, with the
files this run has left, `A` does not refine `S`: the guard of `S` has been written without the parentheses that it needs
(see `C53_violated_guard`).  This depends on the order in which the zone library lists the disjuncts. -/
theorem C65_violated_reopened : ∃ (P P' Q : Project) (As : List (QueryOutcome FedD)),
    openProject exBrokenFiles exBrokenText = .ok P ∧ session (jsonLoader FedD) saveBroken P = .ok (As, P') ∧
    shapes (session (jsonLoader FedD) askBroken P') = some ["yes"] ∧
    openProject P'.files exBrokenText = .ok Q ∧ shapes (session (jsonLoader FedD) askBroken Q) = some ["no"] := by
  obtain ⟨P', h⟩ := onlySaved_some broken_saved
  obtain ⟨_, h2, h3, h4⟩ := session_project h
  have h3 : P'.files = brokenFiles := h3.trans broken_files
  refine ⟨brokenStart, P', ⟨brokenFiles, [], ⟨["A"], [], []⟩⟩, _, brokenStart_ok, h, ?_, by rw [h3]; rfl, broken_after⟩
  have hs : brokenStart.save exSavedS = .ok ⟨brokenFiles, [("S", exSavedS)], ⟨["A"], [], []⟩⟩ := by
    have h5 : ∃ raw, exSavedS.write = .ok raw := by
      cases hw : exSavedS.write with
      | ok raw => exact ⟨raw, rfl⟩
      | error e => exact absurd (show exSavedS.write.toBool = true by decide +kernel) (by rw [hw]; exact Bool.false_ne_true)
    obtain ⟨raw, hw⟩ := h5
    refine project_save.2 ⟨raw, hw, ?_⟩
    have : brokenFiles = fun n => if n = exSavedS.name then some raw else brokenStart.files n := by
      funext n
      unfold brokenFiles
      rw [hw]
      rfl
    rw [this]
    rfl
  have hv : (jsonLoader FedD).view P' = (jsonLoader FedD).view ⟨brokenFiles, [("S", exSavedS)], ⟨["A"], [], []⟩⟩ := by
    rw [h2]
    funext n
    rw [project_save_view hs]
    unfold seenAfter lastSaved lastSaved
    dsimp only
    by_cases hn : n = exSavedS.name
    · rw [if_pos hn, if_pos hn.symm]
    · rw [if_neg hn, if_neg (fun h => hn h.symm)]
  obtain ⟨As, P1, h5, h6⟩ := shapes_some broken_before
  have h7 := (session_project h5).1
  rw [← hv] at h7
  obtain ⟨P2, h8⟩ := session_project_ok h7
  rw [h8]
  exact congrArg some h6

end Reveaal
