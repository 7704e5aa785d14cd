import Verif.Model.Answer
import Verif.Model.Execute
import Verif.Spec.Names
import Verif.Props.C62
import Verif.Lemmas.SysGood
import Verif.Lemmas.Recipe
import Verif.Props.C64

/-!
# C74 The names of systems in answers can be read as the systems
-/

namespace Reveaal
open Text

/-! ## Recipes -/

/-- The expression a recipe is for, without ids -/
def Recipe.expr : Recipe → SysExpr
  | .composition l r => .composition l.expr r.expr
  | .conjunction l r => .conjunction l.expr r.expr
  | .quotient l r _ => .quotient l.expr r.expr
  | .component c _ => .component c.name none

theorem recipe_expr {load : String → Res Component} (hload : ∀ n c, load n = .ok c → c.name = n) :
    ∀ {e : SysExpr} {d d' : Nat} {q q' : Option Nat} {r : Recipe}, getSystemRecipe load e d q = .ok (r, d', q') →
    r.expr = e.anonymous := by
  intro e
  induction e with
  | composition l r ihl ihr | conjunction l r ihl ihr =>
    intro d d' q q' x h
    rw [getSystemRecipe] at h
    obtain ⟨⟨a, d1, q1⟩, h1, h⟩ := bind_ok h
    obtain ⟨⟨b, d2, q2⟩, h2, h⟩ := bind_ok h
    cases h
    rw [Recipe.expr, SysExpr.anonymous, ihl h1, ihr h2]
  | quotient l r ihl ihr =>
    intro d d' q q' x h
    rw [getSystemRecipe] at h
    obtain ⟨⟨a, d1, q1⟩, h1, h⟩ := bind_ok h
    obtain ⟨⟨b, d2, q2⟩, h2, h⟩ := bind_ok h
    dsimp only at h
    split at h <;> cases h <;> rw [Recipe.expr, SysExpr.anonymous, ihl h1, ihr h2]
  | component name id =>
    intro d d' q q' x h
    rw [getSystemRecipe] at h
    obtain ⟨c, h1, h⟩ := bind_ok h
    cases h
    show SysExpr.component c.name none = _
    rw [hload _ _ h1]; rfl

theorem mapComponents_expr {f : Component → Component} (hf : ∀ c, (f c).name = c.name) (r : Recipe) :
    (r.mapComponents f).expr = r.expr := by
  induction r with
  | composition l r ihl ihr | conjunction l r ihl ihr | quotient l r q ihl ihr =>
    simp only [Recipe.mapComponents, Recipe.expr, ihl, ihr]
  | component c i => simp only [Recipe.mapComponents, Recipe.expr, hf]

theorem changeQuotient_expr (n : Nat) (r : Recipe) : (r.changeQuotient n).expr = r.expr := by
  induction r with
  | composition l r ihl ihr | conjunction l r ihl ihr | quotient l r q ihl ihr =>
    simp only [Recipe.changeQuotient, Recipe.expr, ihl, ihr]
  | component c i => rfl

theorem modifyFirst_expr {p : Component → Bool} {f : Component → Res Component}
    (hf : ∀ c c', f c = .ok c' → c'.name = c.name) : ∀ {r r' : Recipe}, r.modifyFirst p f = .ok (some r') →
    r'.expr = r.expr := by
  intro r
  induction r with
  | composition l r ihl ihr | conjunction l r ihl ihr | quotient l r q ihl ihr =>
    intro r' h
    rw [Recipe.modifyFirst] at h
    obtain ⟨o, h1, h⟩ := bind_ok h
    cases o with
    | some a => cases h; simp only [Recipe.expr, ihl h1]
    | none =>
      obtain ⟨o, h2, h⟩ := bind_ok h
      cases o with
      | none => cases h
      | some b => cases h; simp only [Recipe.expr, ihr h2]
  | component c i =>
    intro r' h
    rw [Recipe.modifyFirst] at h
    split at h
    · obtain ⟨c', h1, h⟩ := bind_ok h
      cases h
      simp only [Recipe.expr, hf _ _ h1]
    · cases h

theorem reduceClock_expr {r r' : Recipe} {i : ClockInstr} (h : r.reduceClock i = .ok r') : r'.expr = r.expr := by
  cases i with
  | remove i =>
    rw [Recipe.reduceClock] at h
    obtain ⟨o, h1, h⟩ := bind_ok h
    cases o with
    | none => cases h
    | some x =>
      cases h
      refine modifyFirst_expr (fun c c' h => ?_) h1
      unfold Component.removeClock at h
      split at h <;> cases h
      rfl
  | replace i cs => cases h; exact mapComponents_expr (by intro c; rfl) r

theorem reduceClocks_expr : ∀ {ins : List ClockInstr} {r r' : Recipe}, r.reduceClocks ins = .ok r' → r'.expr = r.expr := by
  intro ins
  induction ins with
  | nil => intro r r' h; cases h; rfl
  | cons i ins ih =>
    intro r r' h
    obtain ⟨x, h1, h⟩ := bind_ok (show (r.reduceClock i >>= fun x => x.reduceClocks ins) = .ok r' from h)
    rw [ih h, reduceClock_expr h1]

theorem renumber_expr (m : List (Nat × Nat)) (r : Recipe) : (r.mapComponents (Component.renumber m)).expr = r.expr :=
  mapComponents_expr (by intro c; rfl) r

section
variable {F : Type} [ZoneLib F]

theorem clockReduceSingle_expr {env : CompileEnv F} {ord : HashOrder} {acts : Sys F → List String} {r r' : Recipe}
    {d d' : Nat} {q : Option Nat} (h : clockReduceSingle env ord acts r d q = .ok (r', d')) : r'.expr = r.expr := by
  obtain ⟨⟨s, _⟩, _, h⟩ := bind_ok h
  obtain ⟨cl, _, h⟩ := bind_ok h
  obtain ⟨d1, _, h⟩ := bind_ok h
  obtain ⟨x, h1, h⟩ := bind_ok h
  cases h
  have e : (((compressDecls [x]).head?).getD x).expr = r.expr := by
    simp only [compressDecls, List.map_cons, List.head?_cons, Option.getD_some, renumber_expr]
    exact reduceClocks_expr h1
  split
  · rw [changeQuotient_expr]; exact e
  · exact e

theorem clockReduceTwo_expr {env env' : CompileEnv F} {ord ord' : HashOrder} {acts : Sys F → List String}
    {l r l' r' : Recipe} {d d' : Nat} {q : Option Nat}
    (h : clockReduceTwo env env' ord ord' acts l r d q = .ok (l', r', d')) : l'.expr = l.expr ∧ r'.expr = r.expr := by
  obtain ⟨⟨s, _⟩, _, h⟩ := bind_ok h
  obtain ⟨cl, _, h⟩ := bind_ok h
  obtain ⟨⟨t, _⟩, _, h⟩ := bind_ok h
  obtain ⟨cr, _, h⟩ := bind_ok h
  dsimp only at h
  obtain ⟨d1, _, h⟩ := bind_ok h
  obtain ⟨y, h2, h⟩ := bind_ok h
  obtain ⟨x, h1, h⟩ := bind_ok h
  simp only [compressDecls, List.map_cons, List.map_nil] at h
  by_cases hq : q.isSome = true
  · rw [if_pos hq] at h
    cases h
    exact ⟨by rw [changeQuotient_expr, renumber_expr, reduceClocks_expr h1],
      by rw [changeQuotient_expr, renumber_expr, reduceClocks_expr h2]⟩
  · rw [if_neg hq] at h
    cases h
    exact ⟨by rw [renumber_expr, reduceClocks_expr h1], by rw [renumber_expr, reduceClocks_expr h2]⟩

/-! ## The name of a compiled system -/

/-- The name of a system as a text a user might write: every operator in parentheses, with one space on each side -/
def SysExpr.nameText : SysExpr → SysText
  | .composition l r => .parens [] (.op l.nameText [.space] .composition [.space] r.nameText) []
  | .conjunction l r => .parens [] (.op l.nameText [.space] .conjunction [.space] r.nameText) []
  | .quotient l r => .parens [] (.op l.nameText [.space] .quotient [.space] r.nameText) []
  | .component name _ => .component name none

theorem nameText_meaning (e : SysExpr) : e.nameText.meaning = e.anonymous := by
  induction e with
  | composition l r ihl ihr | conjunction l r ihl ihr | quotient l r ihl ihr =>
    simp only [SysExpr.nameText, SysText.meaning, OpSign.apply, SysExpr.anonymous, ihl, ihr]
  | component name id => rfl

theorem nameText_grouped (e : SysExpr) (p : Nat) : e.nameText.Grouped p := by
  induction e generalizing p with
  | composition l r ihl ihr | conjunction l r ihl ihr | quotient l r ihl ihr =>
    exact ⟨Nat.zero_le _, ihl _, ihr _⟩
  | component name id => trivial

theorem anonymous_writable {e : SysExpr} (h : e.Writable) : e.anonymous.Writable := by
  induction e with
  | composition l r ihl ihr | conjunction l r ihl ihr | quotient l r ihl ihr => exact ⟨ihl h.1, ihr h.2⟩
  | component name id =>
    cases id with
    | none => exact h
    | some id => exact h.1

theorem anonymous_anonymous (e : SysExpr) : e.anonymous.anonymous = e.anonymous := by
  induction e with
  | composition l r ihl ihr | conjunction l r ihl ihr | quotient l r ihl ihr =>
    simp only [SysExpr.anonymous, ihl, ihr]
  | component name id => rfl

theorem compile_name : ∀ {r : Recipe} {env : CompileEnv F} {i j : Nat} {s : Sys F}, r.compile env i = .ok (s, j) →
    s.name.toList = r.expr.nameText.text := by
  intro r
  induction r with
  | component c id =>
    intro env i j s h
    obtain ⟨y, h1, h⟩ := bind_ok h
    cases h
    unfold CompComp.compile CompComp.compileWith at h1
    split at h1
    · cases h1
    obtain ⟨locs, _, h1⟩ := bind_ok h1
    obtain ⟨es, _, h1⟩ := bind_ok h1
    cases h1
    rfl
  | composition l r ihl ihr =>
    intro env i j s h
    obtain ⟨⟨sl, k⟩, h1, h⟩ := bind_ok h
    obtain ⟨⟨sr, m⟩, h2, h⟩ := bind_ok h
    obtain ⟨x, h3, h⟩ := bind_ok h
    cases h
    obtain ⟨_, rfl⟩ := Sys.newComposition_eq h3
    simp [Sys.name, String.toList_append, ihl h1, ihr h2, Recipe.expr, SysExpr.nameText, SysText.text, blanks, Blank.text,
      OpSign.text]
  | conjunction l r ihl ihr =>
    intro env i j s h
    obtain ⟨⟨sl, k⟩, h1, h⟩ := bind_ok h
    obtain ⟨⟨sr, m⟩, h2, h⟩ := bind_ok h
    obtain ⟨x, h3, h⟩ := bind_ok h
    cases h
    obtain ⟨_, _, rfl⟩ := Sys.newConjunction_eq (newConjunction_unchecked h3)
    simp [Sys.name, String.toList_append, ihl h1, ihr h2, Recipe.expr, SysExpr.nameText, SysText.text, blanks, Blank.text,
      OpSign.text]
  | quotient l r q ihl ihr =>
    intro env i j s h
    obtain ⟨⟨sl, k⟩, h1, h⟩ := bind_ok h
    obtain ⟨⟨sr, m⟩, h2, h⟩ := bind_ok h
    obtain ⟨x, h3, h⟩ := bind_ok h
    cases h
    obtain ⟨_, rfl⟩ := Sys.newQuotient_eq (newQuotient_unchecked h3)
    simp [Sys.name, String.toList_append, ihl h1, ihr h2, Recipe.expr, SysExpr.nameText, SysText.text, blanks, Blank.text,
      OpSign.text]

/-- The name of a compiled system is read as the system the recipe is for. -/
theorem compile_parse {r : Recipe} {env : CompileEnv F} {i j : Nat} {s : Sys F} (h : r.compile env i = .ok (s, j))
    (hw : r.expr.Writable) : parseSystem s.name.toList = .ok r.expr := by
  have h1 := nameText_meaning r.expr
  have h2 : r.expr.anonymous = r.expr := by
    clear h h1 hw
    induction r with
    | composition l r ihl ihr | conjunction l r ihl ihr | quotient l r q ihl ihr =>
      simp only [Recipe.expr, SysExpr.anonymous, ihl, ihr]
    | component c i => rfl
  rw [h2] at h1
  rw [compile_name h, C62_system (nameText_grouped _ 0) (by rw [h1]; exact hw), h1]

end

/-! ## The names in answers -/

section
variable {Z : Nat → Type} [∀ d, ZoneLib (Z d)]

theorem reduceOne_expr {X : QueryEnv Z} {r r' : Recipe} {d d' : Nat} {q : Option Nat} (h : X.reduceOne r d q = .ok (r', d')) :
    r'.expr = r.expr := by
  unfold QueryEnv.reduceOne at h
  split at h
  · obtain ⟨⟨x, o, d1⟩, h1, h⟩ := bind_ok h
    cases h
    unfold clockReduce at h1
    split at h1
    · cases h1; rfl
    · obtain ⟨⟨y, d2⟩, h2, h1⟩ := bind_ok h1
      cases h1
      exact clockReduceSingle_expr h2
  · cases h; rfl

theorem reduceTwo_expr {X : QueryEnv Z} {l r l' r' : Recipe} {d d' : Nat} {q : Option Nat}
    (h : X.reduceTwo l r d q = .ok (l', r', d')) : l'.expr = l.expr ∧ r'.expr = r.expr := by
  unfold QueryEnv.reduceTwo at h
  split at h
  · obtain ⟨⟨x, o, d1⟩, h1, h⟩ := bind_ok h
    unfold clockReduce at h1
    split at h1
    · cases h1; cases h; exact ⟨rfl, rfl⟩
    · obtain ⟨⟨y, z, d2⟩, h2, h1⟩ := bind_ok h1
      cases h1
      cases h
      exact clockReduceTwo_expr h2
  · cases h; exact ⟨rfl, rfl⟩

/-- **C74 (one system).** The name the answer to a query about one system shows for the system is read, by the parser of
queries, as the system the user named, without the ids of its components. -/
theorem C74_system (X : QueryEnv Z) (load : String → Res Component) (hload : ∀ n c, load n = .ok c → c.name = n)
    (e : SysExpr) (he : e.Writable) (d : Nat) (s : Sys (Z d)) (h : X.system load e = .ok ⟨d, s⟩) :
    parseSystem s.name.toList = .ok e.anonymous := by
  obtain ⟨⟨r, d1, q⟩, h1, h⟩ := bind_ok h
  obtain ⟨⟨r', d2⟩, h2, h⟩ := bind_ok h
  obtain ⟨⟨x, j⟩, h3, h⟩ := bind_ok h
  cases h
  have e1 : r'.expr = e.anonymous := (reduceOne_expr h2).trans (recipe_expr hload h1)
  rw [← e1]
  exact compile_parse h3 (e1 ▸ anonymous_writable he)

theorem refinementName_text {F : Type} {s t : Sys F} {w v : SysText} (n1 : s.name.toList = w.text) (n2 : t.name.toList = v.text) :
    ("refinement: " ++ refinementName s t).toList = (QueryWritten.refinement [.space] w [.space] [.space] v).text := by
  have k : "refinement: ".toList = "refinement:".toList ++ [' '] := by simp
  have k' : " <= ".toList = [' ', '<', '=', ' '] := by simp
  have k'' : blanks [.space] = [' '] := by rfl
  rw [refinementName, String.toList_append, String.toList_append, String.toList_append, n1, n2, k, k']
  show _ =  "refinement:".toList ++ (blanks _ ++ (w.text ++ (blanks _ ++ ('<' :: '=' :: (blanks _ ++ v.text)))))
  rw [k'']
  generalize "refinement:".toList = u
  simp only [List.append_assoc, List.cons_append, List.nil_append]

/-- **C74 (refinement).** The name of the refinement shown with a failure of it, after the keyword, is read as the
refinement query about the two systems the user named, without the ids of their components. -/
theorem C74_refinement (X : QueryEnv Z) (load : String → Res Component) (hload : ∀ n c, load n = .ok c → c.name = n)
    (e e' : SysExpr) (he : e.Writable) (he' : e'.Writable) (l r l' r' : Recipe) (d₀ d₁ d : Nat) (q₀ q₁ : Option Nat)
    (hl : getSystemRecipe load e 0 none = .ok (l, d₀, q₀)) (hr : getSystemRecipe load e' d₀ q₀ = .ok (r, d₁, q₁))
    (hred : X.reduceTwo l r d₁ q₁ = .ok (l', r', d)) (s t : Sys (Z d)) (i j : Nat)
    (hs : l'.compile (X.compiled d) 0 = .ok (s, i)) (ht : r'.compile (X.compiled' d) i = .ok (t, j)) :
    parseQueries ("refinement: " ++ refinementName s t).toList = .ok [.refinement e.anonymous e'.anonymous] := by
  obtain ⟨e1, e2⟩ := reduceTwo_expr hred
  rw [recipe_expr hload hl] at e1
  rw [recipe_expr hload hr] at e2
  have m1 := nameText_meaning e.anonymous
  have m2 := nameText_meaning e'.anonymous
  rw [anonymous_anonymous] at m1 m2
  have h := C62_queries_partial [] (.refinement [.space] e.anonymous.nameText [.space] [.space] e'.anonymous.nameText) [] []
    ⟨⟨nameText_grouped _ 0, by rw [m1]; exact anonymous_writable he⟩, nameText_grouped _ 0,
      by rw [m2]; exact anonymous_writable he'⟩ (by simp)
  have n1 := compile_name hs
  have n2 := compile_name ht
  rw [e1] at n1
  rw [e2] at n2
  rw [refinementName_text n1 n2, ← List.append_nil (QueryWritten.text _)]
  refine Eq.trans h ?_
  simp only [QueryWritten.meaning, m1, m2, List.map_nil]

end

section
variable {F : Type} [ZoneLib F]

/-- **C74 (refused systems).** The name shown for a composition, conjunction or quotient that is refused is read as that
composition, conjunction or quotient of its two operands. -/
theorem C74_refused (env : CompileEnv F) (l r : Recipe) (hl : l.expr.Writable) (hr : r.expr.Writable) (i j k : Nat)
    (s t : Sys F) (hs : l.compile env i = .ok (s, j)) (ht : r.compile env j = .ok (t, k)) :
    parseSystem (refusedName s t .composition).toList = .ok (.composition l.expr r.expr) ∧
    parseSystem (refusedName s t .conjunction).toList = .ok (.conjunction l.expr r.expr) ∧
    parseSystem (refusedName s t .quotient).toList = .ok (.quotient l.expr r.expr) := by
  have n1 := compile_name hs
  have n2 := compile_name ht
  have m : ∀ {r : Recipe}, r.expr.nameText.meaning = r.expr := by
    intro r
    rw [nameText_meaning]
    induction r with
    | composition l r ihl ihr | conjunction l r ihl ihr | quotient l r q ihl ihr =>
      simp only [Recipe.expr, SysExpr.anonymous, ihl, ihr]
    | component c i => rfl
  have key : ∀ (o : OpSign) (op : CompType), op.operator.toList = o.text → (o.apply l.expr r.expr).Writable →
      parseSystem (refusedName s t op).toList = .ok (o.apply l.expr r.expr) := by
    intro o op ho hw
    have h := C62_system (w := .op l.expr.nameText [.space] o [.space] r.expr.nameText)
      ⟨Nat.zero_le _, nameText_grouped _ _, nameText_grouped _ _⟩
      (by simp only [SysText.meaning, m]; exact hw)
    simp only [SysText.meaning, m] at h
    rw [← h]
    refine congrArg parseSystem ?_
    simp [refusedName, String.toList_append, n1, n2, ho, SysText.text, blanks, Blank.text]
  exact ⟨key .composition .composition (by simp [CompType.operator, OpSign.text]) ⟨hl, hr⟩,
    key .conjunction .conjunction (by simp [CompType.operator, OpSign.text]) ⟨hl, hr⟩,
    key .quotient .quotient (by simp [CompType.operator, OpSign.text]) ⟨hl, hr⟩⟩

end

/-! ## Examples -/

def exOne : Component := ⟨"A", ⟨[], [("x", 1), ("u", 2)]⟩, [⟨"L0", none, .initial, "NORMAL"⟩],
  [⟨"e", "L0", "L0", .output, some (.ge (.var "x") (.int 2)), some [⟨"x", .int 0⟩, ⟨"u", .int 0⟩], "a"⟩]⟩
def exOther : Component := ⟨"B", ⟨[], [("y", 1)]⟩, [⟨"M0", none, .initial, "NORMAL"⟩],
  [⟨"f", "M0", "M0", .output, some (.ge (.var "y") (.int 3)), some [⟨"y", .int 0⟩], "a"⟩]⟩

def loadOwn : String → Res Component := fun n =>
  if n = "A" then .ok exOne else if n = "B" then .ok exOther else .error (.err "unknown")

theorem loadOwn_names (n : String) (c : Component) (h : loadOwn n = .ok c) : c.name = n := by
  unfold loadOwn at h
  split at h
  · next hn => cases h; exact hn.symm
  · split at h
    · next hn => cases h; exact hn.symm
    · cases h

def exNamed : SysExpr := .quotient (.conjunction (.component "A" (some "left")) (.component "B" none)) (.component "B" (some "b"))

theorem exNamed_writable : exNamed.Writable := by
  have a : IsName "A" := isName_of rfl (by decide)
  have b : IsName "B" := isName_of rfl (by decide)
  have i : IsSpecialId "left" := ⟨'l', "eft".toList, rfl, by decide, by decide, by decide, by decide, by decide, by decide⟩
  have j : IsSpecialId "b" := ⟨'b', [], rfl, by decide, by decide, by decide, by decide, by decide, by decide⟩
  exact ⟨⟨⟨a, i⟩, b⟩, b, j⟩

/-- The conditions hold, with clock reduction, for a quotient of a conjunction; the name is `((A && B) \\\\ B)`. -/
example : ∃ (d : Nat) (s : Sys (FedD d)), (plainQueries true : QueryEnv FedD).system loadOwn exNamed = .ok ⟨d, s⟩ ∧
    parseSystem s.name.toList = .ok (.quotient (.conjunction (.component "A" none) (.component "B" none)) (.component "B" none)) := by
  obtain ⟨⟨d, s⟩, h⟩ : ∃ x, (plainQueries true : QueryEnv FedD).system loadOwn exNamed = .ok x :=
    ⟨_, getOk_eq (by decide +kernel)⟩
  exact ⟨d, s, h, C74_system _ _ loadOwn_names _ exNamed_writable _ _ h⟩

/-- And for a refinement between the two components -/
example : ∃ (l r l' r' : Recipe) (d₀ d₁ d : Nat) (q₀ q₁ : Option Nat) (s t : Sys (FedD d)) (i j : Nat),
    getSystemRecipe loadOwn (.component "A" none) 0 none = .ok (l, d₀, q₀) ∧
    getSystemRecipe loadOwn (.component "B" none) d₀ q₀ = .ok (r, d₁, q₁) ∧
    (plainQueries true : QueryEnv FedD).reduceTwo l r d₁ q₁ = .ok (l', r', d) ∧
    l'.compile ((plainQueries true : QueryEnv FedD).compiled d) 0 = .ok (s, i) ∧
    r'.compile ((plainQueries true : QueryEnv FedD).compiled' d) i = .ok (t, j) ∧
    parseQueries ("refinement: " ++ refinementName s t).toList = .ok [.refinement (.component "A" none) (.component "B" none)] := by
  have h : (do
      let (l, d, q) ← getSystemRecipe loadOwn (.component "A" none) 0 none
      let (r, d, q) ← getSystemRecipe loadOwn (.component "B" none) d q
      let (l, r, d) ← (plainQueries true : QueryEnv FedD).reduceTwo l r d q
      let (_, i) ← l.compile ((plainQueries true : QueryEnv FedD).compiled d) 0
      let _ ← r.compile ((plainQueries true : QueryEnv FedD).compiled' d) i
      (.ok () : Res Unit)) = .ok () := by decide +kernel
  obtain ⟨⟨l, d, q⟩, h1, h⟩ := bind_ok h
  obtain ⟨⟨r, d, q⟩, h2, h⟩ := bind_ok h
  obtain ⟨⟨l, r, d⟩, h3, h⟩ := bind_ok h
  obtain ⟨⟨s, i⟩, h4, h⟩ := bind_ok h
  obtain ⟨⟨t, j⟩, h5, h⟩ := bind_ok h
  exact ⟨_, _, _, _, _, _, _, _, _, _, _, _, _, h1, h2, h3, h4, h5, C74_refinement _ _ loadOwn_names
    (.component "A" none) (.component "B" none) (show IsName "A" from isName_of rfl (by decide))
    (show IsName "B" from isName_of rfl (by decide)) _ _ _ _ _ _ _ _ _ h1 h2 h3 _ _ _ _ h4 h5⟩

/-- And for a composition of the two components, which is refused because both have the output `a` -/
example : ∃ (s t : Sys Fed4) (j k : Nat), (Recipe.component exOne none).compile (envK Fed4) 0 = .ok (s, j) ∧
    (Recipe.component exOther none).compile (envK Fed4) j = .ok (t, k) ∧ (∃ m, Sys.newComposition s t = .error (.err m)) ∧
    parseSystem (refusedName s t .composition).toList = .ok (.composition (.component "A" none) (.component "B" none)) := by
  have h : (do
      let (s, i) ← (Recipe.component exOne none).compile (envK Fed4) 0
      let (t, _) ← (Recipe.component exOther none).compile (envK Fed4) i
      .ok (match Sys.newComposition s t with
        | .error (.err _) => true
        | _ => false) : Res Bool) = .ok true := by decide +kernel
  obtain ⟨⟨s, i⟩, h1, h⟩ := bind_ok h
  obtain ⟨⟨t, j⟩, h2, h⟩ := bind_ok h
  refine ⟨s, t, i, j, h1, h2, ?_, (C74_refused _ (.component exOne none) (.component exOther none)
    (show IsName "A" from isName_of rfl (by decide)) (show IsName "B" from isName_of rfl (by decide)) _ _ _ _ _ h1 h2).1⟩
  have h := Except.ok.inj h
  split at h
  · next m hm => exact ⟨m, hm⟩
  · cases h

end Reveaal
