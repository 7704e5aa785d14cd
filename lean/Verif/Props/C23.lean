import Verif.Spec.Recipe
import Verif.Lemmas.Compile
import Mathlib.Data.List.Nodup

/-! # C23: clock indices of a query never collide -/

namespace Reveaal

/-! ## Reading declarations -/

theorem hmInsert_new {K V : Type} [DecidableEq K] {k : K} {v : V} : ∀ {m : List (K × V)},
    k ∉ m.map (·.1) → hmInsert k v m = m ++ [(k, v)]
  | [], _ => rfl
  | p :: m, h => by
    simp only [List.map_cons, List.mem_cons, not_or] at h
    rw [hmInsert, if_neg (fun e => h.1 e.symm), hmInsert_new h.2]
    rfl

/-- The state after the clocks `names` have been declared, all different. -/
def DeclState.After (st : DeclState) (names : List String) : Prop :=
  names.Nodup → st.clocks = names.zip (List.range' 1 names.length) ∧ st.counter = names.length + 1

theorem zip_range_keys (names : List String) :
    (names.zip (List.range' 1 names.length)).map (·.1) = names :=
  List.map_fst_zip (by simp)

theorem addClock_after {st : DeclState} {names : List String} (h : st.After names) (n : List Char) :
    (st.addClock n).After (names ++ if n.isEmpty then [] else [String.ofList n]) := by
  unfold DeclState.addClock
  split
  · simpa using h
  · intro hn
    rw [List.nodup_append] at hn
    obtain ⟨h1, h2⟩ := h hn.1
    have hnew : String.ofList n ∉ names := fun hm => hn.2.2 _ hm _ (by simp) rfl
    refine ⟨?_, by simp [h2]⟩
    dsimp only
    rw [hmInsert_new (by rw [h1, zip_range_keys]; exact hnew), h1, h2]
    rw [List.length_append, List.length_singleton, List.range'_1_concat, List.zip_append (by simp), Nat.add_comm 1]
    rfl

theorem foldl_after {α : Type} {f : DeclState → α → DeclState} {g : α → List String}
    (hf : ∀ {st names}, DeclState.After st names → ∀ a, (f st a).After (names ++ g a)) :
    ∀ (l : List α) {st : DeclState} {names : List String}, st.After names →
      (l.foldl f st).After (names ++ l.flatMap g)
  | [], _, _, h => by simpa using h
  | a :: l, _, _, h => by
    rw [List.foldl_cons, List.flatMap_cons, ← List.append_assoc]
    exact foldl_after hf l (hf h a)

theorem foldlM_after {α : Type} {f : DeclState → α → Res DeclState} {g : α → List String}
    (hf : ∀ {st names st'}, DeclState.After st names → ∀ a, f st a = .ok st' → st'.After (names ++ g a)) :
    ∀ (l : List α) {st st' : DeclState} {names : List String}, st.After names → l.foldlM f st = .ok st' →
      st'.After (names ++ l.flatMap g)
  | [], _, _, _, h, he => by
    cases he; simpa using h
  | a :: l, st, st', names, h, he => by
    rw [List.foldlM_cons] at he
    obtain ⟨st1, h1, h2⟩ := bind_ok he
    rw [List.flatMap_cons, ← List.append_assoc]
    exact foldlM_after hf l (hf h a h1) h2

theorem flatMap_filter_map (w : List (List Char)) :
    (w.flatMap fun n => if n.isEmpty then [] else [String.ofList n]) =
      (w.filter fun n => !n.isEmpty).map String.ofList := by
  induction w with
  | nil => rfl
  | cons n w ih =>
    rw [List.flatMap_cons, List.filter_cons, ih]
    cases n.isEmpty <;> simp

/-- The clocks one declaration declares. -/
def declClocks (decl : List Char) : List String :=
  match splitOnChar ' ' decl with
  | ty :: words =>
    if ty = "clock".toList then
      words.flatMap fun w => ((splitOnChar ',' w).filter fun n => !n.isEmpty).map String.ofList
    else []
  | [] => []

theorem addInt_clocks : ∀ (ns : List (List Char)) (st : DeclState),
    (ns.foldl DeclState.addInt st).clocks = st.clocks ∧ (ns.foldl DeclState.addInt st).counter = st.counter
  | [], _ => ⟨rfl, rfl⟩
  | n :: ns, st => addInt_clocks ns (st.addInt n)

theorem addInts_clocks : ∀ (ws : List (List Char)) (st : DeclState),
    (ws.foldl (fun st w => (splitOnChar ',' w).foldl DeclState.addInt st) st).clocks = st.clocks ∧
    (ws.foldl (fun st w => (splitOnChar ',' w).foldl DeclState.addInt st) st).counter = st.counter
  | [], _ => ⟨rfl, rfl⟩
  | w :: ws, st => by
    rw [List.foldl_cons]
    obtain ⟨h1, h2⟩ := addInts_clocks ws ((splitOnChar ',' w).foldl DeclState.addInt st)
    obtain ⟨h3, h4⟩ := addInt_clocks (splitOnChar ',' w) st
    exact ⟨h1.trans h3, h2.trans h4⟩

theorem subDecl_after {st st' : DeclState} {names : List String} (h : st.After names) (decl : List Char)
    (he : st.subDecl decl = .ok st') : st'.After (names ++ declClocks decl) := by
  unfold DeclState.subDecl at he
  unfold declClocks
  split at he
  · cases he
    rename_i hd
    rw [List.isEmpty_iff] at hd
    subst hd
    simpa [splitOnChar] using h
  · cases hs : splitOnChar ' ' decl with
    | nil => rw [hs] at he; cases he
    | cons ty words =>
      rw [hs] at he
      dsimp only at he ⊢
      split at he
      · cases he
        rename_i hty
        rw [if_pos hty]
        refine foldl_after (fun {st names} h w => ?_) words h
        rw [← flatMap_filter_map]
        exact foldl_after (fun h n => addClock_after h n) _ h
      · rename_i hty
        rw [if_neg hty]
        split at he
        · cases he
          intro hn
          rw [List.append_nil] at hn ⊢
          rw [(addInts_clocks words st).1, (addInts_clocks words st).2]
          exact h hn
        · cases he

theorem line_after {st st' : DeclState} {names : List String} (h : st.After names) (l : List Char)
    (he : st.line l = .ok st') :
    st'.After (names ++ if "//".toList.isPrefixOf l then [] else (splitOnChar ';' l).flatMap declClocks) := by
  unfold DeclState.line at he
  by_cases hp : "//".toList.isPrefixOf l = true
  · rw [hp, Bool.true_or, if_pos rfl] at he
    cases he
    rw [if_pos hp, List.append_nil]
    exact h
  · rw [Bool.not_eq_true] at hp
    rw [hp, Bool.false_or] at he
    rw [hp]
    simp only [Bool.false_eq_true, if_false]
    split at he
    · cases he
      rename_i hd
      rw [List.isEmpty_iff] at hd
      subst hd
      simpa [splitOnChar, declClocks] using h
    · exact foldlM_after (fun h a he => subDecl_after h a he) _ h he

/-- Reading a declaration text numbers its clocks 1, 2, … in order, if no name is declared twice. -/
theorem C23_decode (text : String) (d : Decls) (h : decodeDeclarations text = .ok d)
    (hn : (declaredClocks text).Nodup) :
    d.clocks = (declaredClocks text).zip (List.range' 1 (declaredClocks text).length) := by
  unfold decodeDeclarations at h
  obtain ⟨st, h1, h2⟩ := bind_ok h
  cases h2
  have h0 : DeclState.After ⟨[], [], 1⟩ [] := fun _ => ⟨rfl, rfl⟩
  have := foldlM_after (fun h a he => line_after h a he) _ h0 h1
  exact (this hn).1

theorem decode_numbered {text : String} {d : Decls} (h : decodeDeclarations text = .ok d)
    (hn : (declaredClocks text).Nodup) : d.Numbered := by
  unfold Decls.Numbered
  rw [C23_decode text d h hn, List.map_snd_zip (by simp)]
  simp

/-! ## Building a query -/

theorem setClockIndices_perm {d : Decls} (h : d.Numbered) (k : Nat) :
    ((d.setClockIndices k).clocks.map (·.2)).Perm (List.range' (k + 1) d.clocks.length) := by
  have : (d.setClockIndices k).clocks.map (·.2) = (d.clocks.map (·.2)).map (k + ·) := by
    unfold Decls.setClockIndices
    simp [List.map_map, Function.comp_def, Nat.add_comm]
  rw [this]
  refine (h.map _).trans ?_
  rw [List.map_add_range']

/-- What one expression adds: a consecutive block of indices, and possibly the quotient clock. -/
theorem recipe_block {load : String → Res Component} (hload : ∀ n c, load n = .ok c → c.decls.Numbered) :
    ∀ (e : SysExpr) {dim dim' : Nat} {q q' : Option Nat} {r : Recipe},
      getSystemRecipe load e dim q = .ok (r, dim', q') →
      dim ≤ dim' ∧
      (r.clockIndices ++ (if q.isSome then [] else q'.toList)).Perm (List.range' (dim + 1) (dim' - dim)) ∧
      (q.isSome → q' = q) ∧ (∀ i ∈ r.quotientClocks, q' = some i) := by
  have pair : ∀ {l r : SysExpr} {mk : Recipe → Recipe → Recipe},
      (∀ a b, (mk a b).clockIndices = a.clockIndices ++ b.clockIndices) →
      (∀ {dim dim' : Nat} {q q' : Option Nat} {x : Recipe}, getSystemRecipe load l dim q = .ok (x, dim', q') →
        dim ≤ dim' ∧
        (x.clockIndices ++ (if q.isSome then [] else q'.toList)).Perm (List.range' (dim + 1) (dim' - dim)) ∧
        (q.isSome → q' = q) ∧ (∀ i ∈ x.quotientClocks, q' = some i)) →
      (∀ {dim dim' : Nat} {q q' : Option Nat} {x : Recipe}, getSystemRecipe load r dim q = .ok (x, dim', q') →
        dim ≤ dim' ∧
        (x.clockIndices ++ (if q.isSome then [] else q'.toList)).Perm (List.range' (dim + 1) (dim' - dim)) ∧
        (q.isSome → q' = q) ∧ (∀ i ∈ x.quotientClocks, q' = some i)) →
      ∀ {dim d1 d2 : Nat} {q q1 q2 : Option Nat} {x y : Recipe},
        getSystemRecipe load l dim q = .ok (x, d1, q1) → getSystemRecipe load r d1 q1 = .ok (y, d2, q2) →
        dim ≤ d2 ∧
        ((mk x y).clockIndices ++ (if q.isSome then [] else q2.toList)).Perm
          (List.range' (dim + 1) (d2 - dim)) ∧
        (q.isSome → q2 = q) ∧ (∀ i ∈ x.quotientClocks ++ y.quotientClocks, q2 = some i) := by
    intro l r mk hmk ihl ihr dim d1 d2 q q1 q2 x y h1 h2
    obtain ⟨a1, a2, a3, a4⟩ := ihl h1
    obtain ⟨b1, b2, b3, b4⟩ := ihr h2
    refine ⟨a1.trans b1, ?_, fun hq => ?_, fun i hi => ?_⟩
    · rw [hmk]
      have hr : List.range' (dim + 1) (d2 - dim) =
          List.range' (dim + 1) (d1 - dim) ++ List.range' (d1 + 1) (d2 - d1) := by
        rw [show d2 - dim = (d1 - dim) + (d2 - d1) by omega, ← List.range'_append_1]
        congr 2; omega
      rw [hr]
      refine List.Perm.trans ?_ (a2.append b2)
      cases hq : q with
      | some i =>
        have := a3 (by rw [hq]; rfl)
        rw [hq] at this
        subst this
        simp
      | none =>
        rw [hq] at a2
        cases hq1 : q1 with
        | some i =>
          have := b3 (by rw [hq1]; rfl)
          rw [hq1] at this
          subst this
          simp only [Option.isSome_none, Bool.false_eq_true, if_false, Option.toList_some, Option.isSome_some,
            if_true, List.append_nil]
          rw [List.append_assoc, List.append_assoc]
          exact List.Perm.append_left _ List.perm_append_comm
        | none => simp [List.append_assoc]
    · have := a3 hq
      rw [b3 (by rw [this]; exact hq), this]
    · rcases List.mem_append.1 hi with hi | hi
      · have := a4 i hi
        rw [b3 (by rw [this]; rfl), this]
      · exact b4 i hi
  intro e
  induction e with
  | composition l r ihl ihr =>
    intro dim dim' q q' x h
    obtain ⟨⟨a, d1, q1⟩, h1, h⟩ := bind_ok h
    obtain ⟨⟨b, d2, q2⟩, h2, h⟩ := bind_ok h
    cases h
    exact pair (mk := .composition) (fun a b => by simp [Recipe.clockIndices, Recipe.components]) ihl ihr h1 h2
  | conjunction l r ihl ihr =>
    intro dim dim' q q' x h
    obtain ⟨⟨a, d1, q1⟩, h1, h⟩ := bind_ok h
    obtain ⟨⟨b, d2, q2⟩, h2, h⟩ := bind_ok h
    cases h
    exact pair (mk := .conjunction) (fun a b => by simp [Recipe.clockIndices, Recipe.components]) ihl ihr h1 h2
  | quotient l r ihl ihr =>
    intro dim dim' q q' x h
    obtain ⟨⟨a, d1, q1⟩, h1, h⟩ := bind_ok h
    obtain ⟨⟨b, d2, q2⟩, h2, h⟩ := bind_ok h
    obtain ⟨p1, p2, p3, p4⟩ := pair (mk := fun a b => .quotient a b 0)
      (fun a b => by simp [Recipe.clockIndices, Recipe.components]) ihl ihr h1 h2
    cases q2 with
    | some i =>
      cases h
      refine ⟨p1, p2, p3, fun k hk => ?_⟩
      rcases List.mem_append.1 hk with hk | hk
      · exact p4 k hk
      · rw [List.mem_singleton] at hk; rw [hk]
    | none =>
      cases h
      have hq : q = none := by
        cases q with
        | none => rfl
        | some i => have := p3 rfl; cases this
      subst hq
      refine ⟨by omega, ?_, by simp, fun k hk => ?_⟩
      · rw [show d2 + 1 - dim = (d2 - dim) + 1 by omega, List.range'_1_concat]
        simp only [Option.isSome_none, Bool.false_eq_true, if_false, Option.toList_some, Option.toList_none,
          List.append_nil] at p2 ⊢
        rw [show dim + 1 + (d2 - dim) = d2 + 1 by omega]
        exact p2.append_right _
      · rcases List.mem_append.1 hk with hk | hk
        · have := p4 k hk; cases this
        · rw [List.mem_singleton] at hk; rw [hk]
  | component name id =>
    intro dim dim' q q' x h
    obtain ⟨c, hc, h⟩ := bind_ok h
    cases h
    refine ⟨by simp [Component.setClockIndices], ?_, fun _ => rfl, fun i hi => by cases hi⟩
    have := setClockIndices_perm (hload name c hc) dim
    simp only [Recipe.clockIndices, Recipe.components, Component.setClockIndices, List.flatMap_cons,
      List.flatMap_nil, List.append_nil]
    have hq : (if q.isSome then [] else q.toList) = ([] : List Nat) := by cases q <;> rfl
    rw [hq, List.append_nil, show dim + c.decls.clocks.length - dim = c.decls.clocks.length by omega]
    exact this

/-- **C23** (partial): if reading numbered the clocks of every component from 1 without gaps
(`C23_decode`: no name is declared twice), then in every query the clocks of all components together with
the quotient clock are numbered from 1 to the number of clocks without gaps or repetitions, and all
quotients use the quotient clock.  Missing: components that declare a name twice, for which it is false. -/
theorem C23_indices_partial (load : String → Res Component)
    (hload : ∀ n c, load n = .ok c → c.decls.Numbered) (es : List SysExpr) (rs : List Recipe) (dim : Nat)
    (q : Option Nat) (h : getRecipes load es 0 none = .ok (rs, dim, q)) :
    (rs.flatMap Recipe.clockIndices ++ q.toList).Perm (List.range' 1 dim) ∧
    ∀ r ∈ rs, ∀ i ∈ r.quotientClocks, q = some i := by
  have key : ∀ (es : List SysExpr) {d d' : Nat} {q q' : Option Nat} {rs : List Recipe},
      getRecipes load es d q = .ok (rs, d', q') → d ≤ d' ∧
      (rs.flatMap Recipe.clockIndices ++ (if q.isSome then [] else q'.toList)).Perm
        (List.range' (d + 1) (d' - d)) ∧ (q.isSome → q' = q) ∧
      ∀ r ∈ rs, ∀ i ∈ r.quotientClocks, q' = some i := by
    intro es
    induction es with
    | nil =>
      intro d d' q q' rs h
      cases h
      refine ⟨le_refl _, ?_, fun _ => rfl, by simp⟩
      have hq : (if q.isSome then [] else q.toList) = ([] : List Nat) := by cases q <;> rfl
      simp [hq]
    | cons e es ih =>
      intro d d' q q' rs h
      obtain ⟨⟨a, d1, q1⟩, h1, h⟩ := bind_ok h
      obtain ⟨⟨b, d2, q2⟩, h2, h⟩ := bind_ok h
      cases h
      obtain ⟨a1, a2, a3, a4⟩ := recipe_block hload e h1
      obtain ⟨b1, b2, b3, b4⟩ := ih h2
      refine ⟨a1.trans b1, ?_, fun hq => ?_, fun r hr i hi => ?_⟩
      · have hr : List.range' (d + 1) (d' - d) =
            List.range' (d + 1) (d1 - d) ++ List.range' (d1 + 1) (d' - d1) := by
          rw [show d' - d = (d1 - d) + (d' - d1) by omega, ← List.range'_append_1]
          congr 2; omega
        rw [hr, List.flatMap_cons]
        refine List.Perm.trans ?_ (a2.append b2)
        cases hq : q with
        | some i =>
          have := a3 (by rw [hq]; rfl)
          rw [hq] at this
          subst this
          simp
        | none =>
          rw [hq] at a2
          cases hq1 : q1 with
          | some i =>
            have := b3 (by rw [hq1]; rfl)
            rw [hq1] at this
            subst this
            simp only [Option.isSome_none, Bool.false_eq_true, if_false, Option.toList_some, Option.isSome_some,
              if_true, List.append_nil]
            rw [List.append_assoc, List.append_assoc]
            exact List.Perm.append_left _ List.perm_append_comm
          | none => simp [List.append_assoc]
      · have := a3 hq
        rw [b3 (by rw [this]; exact hq), this]
      · rcases List.mem_cons.1 hr with rfl | hr
        · have := a4 i hi
          rw [b3 (by rw [this]; rfl), this]
        · exact b4 r hr i hi
  obtain ⟨_, h2, _, h4⟩ := key es h
  exact ⟨by simpa using h2, h4⟩

/-- In other words: different clocks have different indices, the quotient clock differs from all of them, and
every index lies between 1 and the number of clocks. -/
theorem C23_distinct_partial (load : String → Res Component)
    (hload : ∀ n c, load n = .ok c → c.decls.Numbered) (es : List SysExpr) (rs : List Recipe) (dim : Nat)
    (q : Option Nat) (h : getRecipes load es 0 none = .ok (rs, dim, q)) :
    (rs.flatMap Recipe.clockIndices).Nodup ∧ (∀ i, q = some i → i ∉ rs.flatMap Recipe.clockIndices) ∧
    (∀ i ∈ rs.flatMap Recipe.clockIndices ++ q.toList, 1 ≤ i ∧ i ≤ dim) ∧
    dim = (rs.flatMap Recipe.clockIndices).length + q.toList.length := by
  obtain ⟨hp, _⟩ := C23_indices_partial load hload es rs dim q h
  have hn := hp.nodup_iff.2 List.nodup_range'
  rw [List.nodup_append] at hn
  refine ⟨hn.1, fun i hi hm => hn.2.2 i hm i (by rw [hi]; simp) rfl, fun i hi => ?_, ?_⟩
  · have := hp.mem_iff.1 hi
    rw [List.mem_range'_1] at this
    omega
  · have := hp.length_eq
    rw [List.length_append, List.length_range'] at this
    exact this.symm

/-! ## Examples -/

def exDecls (text : String) : Res Component := do
  let d ← decodeDeclarations text
  .ok ⟨text, d, [], []⟩

/-- A refinement with a quotient on each side; the names of the components are their declarations. -/
example : ∃ rs, getRecipes exDecls
      [.quotient (.component "clock x,y;" none) (.component "clock x;" none),
       .composition (.quotient (.component "clock z;clock u;" none) (.component "" none))
         (.component "// clock a;\nint i;clock  b, c;" none)] 0 none = .ok (rs, 8, some 4) ∧
    rs.map Recipe.clockIndices = [[1, 2, 3], [5, 6, 7, 8]] ∧ rs.map Recipe.quotientClocks = [[4], [4]] := by
  exact ⟨_, rfl, rfl, rfl⟩

/-- The full property is false: a component that declares a clock twice numbers it 2 but counts one clock,
so the next component gets the same index. -/
theorem C23_violated_redeclared : ∃ a b : Component, exDecls "clock x, x;" = .ok a ∧ exDecls "clock y;" = .ok b ∧
    ∃ rs, getRecipes exDecls [.composition (.component "clock x, x;" none) (.component "clock y;" none)] 0 none =
      .ok (rs, 2, none) ∧ rs.flatMap Recipe.clockIndices = [2, 2] :=
  ⟨_, _, rfl, rfl, _, rfl, rfl⟩

end Reveaal
