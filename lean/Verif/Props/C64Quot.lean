import Verif.Props.C64

/-!
# C64: examples with a quotient
-/

namespace Reveaal
open ZoneLib

/-- `u` is reset and never read. -/
def exGate (i : Nat) : Component := ⟨"G", ⟨[], [("y", i), ("u", i + 1)]⟩, [⟨"M0", none, .initial, "NORMAL"⟩],
  [⟨"f", "M0", "M0", .output, some (.ge (.var "y") (.int 1)), some [⟨"y", .int 0⟩, ⟨"u", .int 0⟩], "a"⟩]⟩
def exEvery (i : Nat) : Component := ⟨"H", ⟨[], [("z", i)]⟩,
  [⟨"N0", none, .initial, "NORMAL"⟩, ⟨"N1", none, .normal, "NORMAL"⟩],
  [⟨"g", "N0", "N1", .output, none, none, "a"⟩,
   ⟨"h", "N1", "N0", .output, some (.ge (.var "z") (.int 3)), some [⟨"z", .int 0⟩], "a"⟩]⟩
def loadGates : String → Res Component := fun n =>
  if n = "T" then .ok (exGate 1) else if n = "S" then .ok (exEvery 1) else .error (.err "unknown")
/-- `T \\ S` -/
def exQuotExpr : SysExpr := .quotient (.component "T" none) (.component "S" none)
def exQuotRecipe : Recipe := .quotient (.component (exGate 1) none) (.component (exEvery 3) none) 4

theorem exQuot_recipes : getRecipes loadGates [exQuotExpr] 0 none = .ok ([exQuotRecipe], 4, some 4) ∧
    getRecipes loadGates [exQuotExpr, .component "S" none] 0 none =
      .ok ([exQuotRecipe, .component (exEvery 5) none], 5, some 4) := ⟨rfl, rfl⟩

theorem loadGates_numbered (n : String) (c : Component) (h : loadGates n = .ok c) : c.decls.Numbered := by
  unfold loadGates at h
  split at h
  · cases h; exact .refl _
  · split at h
    · cases h; exact .refl _
    · cases h

theorem exGate_reducible {n : Nat} (hn : n = 5 ∨ n = 6) : (exGate 1).Reducible n := by
  have ky : IsClock (exGate 1).decls (.var "y") 1 := .inr ⟨"y", rfl, by rfl⟩
  refine ⟨⟨Component.ok_of_okB ?_, ?_, ?_, by decide +kernel, by decide +kernel, by decide +kernel⟩, ⟨?_, ?_⟩, by decide +kernel⟩
  · rcases hn with rfl | rfl <;> decide
  all_goals (
    intro e he g hg
    rw [List.mem_singleton.1 he] at hg
    cases hg)
  · exact .posConst (.chain (.clock ky)) rfl
  all_goals simp [BoolE.NamesOnly, Arith.NamesOnly]

theorem exEvery_reducible {i n : Nat} (hn : (i = 3 ∧ n = 5) ∨ (i = 3 ∧ n = 6) ∨ (i = 5 ∧ n = 6)) :
    (exEvery i).Reducible n := by
  have kz : IsClock (exEvery i).decls (.var "z") i := .inr ⟨"z", rfl, by rfl⟩
  refine ⟨⟨Component.ok_of_okB ?_, ?_, ?_, by simp [exEvery], by simp [exEvery], ?_⟩, ⟨?_, ?_⟩, ?_⟩
  · rcases hn with ⟨rfl, rfl⟩ | ⟨rfl, rfl⟩ | ⟨rfl, rfl⟩ <;> decide
  · intro e he g hg
    simp only [exEvery, List.mem_cons, List.not_mem_nil, or_false] at he
    rcases he with rfl | rfl
    · cases hg
    · cases hg
      exact .posConst (.chain (.clock kz)) rfl
  · intro l hl g hg
    simp only [exEvery, List.mem_cons, List.not_mem_nil, or_false] at hl
    rcases hl with rfl | rfl <;> cases hg
  · simp [exEvery]
  · intro e he g hg
    simp only [exEvery, List.mem_cons, List.not_mem_nil, or_false] at he
    rcases he with rfl | rfl
    · cases hg
    · cases hg
      simp [BoolE.NamesOnly, Arith.NamesOnly]
  · intro l hl g hg
    simp only [exEvery, List.mem_cons, List.not_mem_nil, or_false] at hl
    rcases hl with rfl | rfl <;> cases hg
  · simp [exEvery]

theorem exGate_agree : (exGate 1).UpdatesAgree := by
  intro e he us hus
  rw [List.mem_singleton.1 he] at hus
  cases hus
  decide

theorem exEvery_agree {i : Nat} : (exEvery i).UpdatesAgree := by
  intro e he us hus
  simp only [exEvery, List.mem_cons, List.not_mem_nil, or_false] at he
  rcases he with rfl | rfl
  · cases hus
  · cases hus
    intro u hu u' hu' _
    rw [List.mem_singleton.1 hu, List.mem_singleton.1 hu']

theorem exGate_harmless : (exGate 1).HarmlessFor [2] := by
  intro n j hj hn
  rw [List.mem_singleton.1 hj] at hn
  simp only [exGate, List.mem_cons, Prod.mk.injEq, List.not_mem_nil, or_false] at hn
  obtain rfl : n = "u" := by
    rcases hn with ⟨_, h⟩ | h
    · omega
    · exact h.1
  refine ⟨fun e he g hg hm => ?_, fun l hl g hg hm => ?_⟩
  · rw [List.mem_singleton.1 he] at hg
    cases hg
    simp [BoolE.hasVar, Arith.hasVar] at hm
  · rw [List.mem_singleton.1 hl] at hg
    cases hg

theorem harmless_other {c : Component} {i : Nat} (h : i ∉ c.decls.clocks.map (·.2)) : c.HarmlessFor [i] := by
  intro n j hj hn
  rw [List.mem_singleton.1 hj] at hn
  exact (h (List.mem_map.2 ⟨_, hn, rfl⟩)).elim

theorem exQuot_components {c : Component} (h : c ∈ exQuotRecipe.components) : c = exGate 1 ∨ c = exEvery 3 := by
  simpa [exQuotRecipe, Recipe.components] using h

theorem exQuot_harmless {i : Nat} (h : i = 2 ∨ i = 5) {c : Component} (hc : c ∈ exQuotRecipe.components) :
    c.HarmlessFor [i] := by
  rcases exQuot_components hc with rfl | rfl
  · rcases h with rfl | rfl
    · exact exGate_harmless
    · exact harmless_other (by decide)
  · rcases h with rfl | rfl <;> exact harmless_other (by decide)

/-- What the analysis reports for `r` with `d` clocks. -/
def reportedIn (d : Nat) (r : Recipe) : Res (List ClockInstr) := do
  let (s, _) ← r.compile (envK (FedD d)) 0
  findRedundantClocks plainOrder s.ts ((plainQueries (Z := FedD) true).acts d s) 20

theorem reportedIn_of {d : Nat} {r : Recipe} {ins : List ClockInstr}
    (h : (plainQueries (Z := FedD) true).Reports d (envK (FedD d)) plainOrder r ins) : reportedIn d r = .ok ins := by
  obtain ⟨s, j, h1, h2⟩ := h
  unfold reportedIn
  rw [h1, ok_bind]
  exact h2

theorem exQuot_reported : reportedIn 4 exQuotRecipe = .ok [.remove 2] ∧ reportedIn 5 exQuotRecipe = .ok [.remove 2, .remove 5] ∧
    reportedIn 5 (.component (exEvery 5) none) = .ok [.remove 1, .remove 2, .remove 3, .remove 4] := by
  refine ⟨?_, ?_, ?_⟩ <;> decide +kernel

theorem exQuot_askable : (plainQueries (Z := FedD) true).Askable exQuotRecipe 4 (some 4) := by
  refine ⟨by decide, ?_, ?_, ?_⟩
  · intro c hc
    rcases exQuot_components hc with rfl | rfl
    · exact ⟨exGate_reducible (.inl rfl), exGate_agree⟩
    · exact ⟨exEvery_reducible (.inl ⟨rfl, rfl⟩), exEvery_agree⟩
  · intro _ ins h i hi c hc
    have := reportedIn_of h
    rw [exQuot_reported.1] at this
    cases this
    simp only [List.mem_cons, ClockInstr.remove.injEq, List.not_mem_nil, or_false] at hi
    exact exQuot_harmless (.inl hi) hc
  · intro _ ins h c cs hm
    have := reportedIn_of h
    rw [exQuot_reported.1] at this
    cases this
    simp at hm

theorem exQuot_comparable : (plainQueries (Z := FedD) true).Comparable exQuotRecipe (.component (exEvery 5) none) 5 (some 4) := by
  refine ⟨by decide, ?_, ?_, .inr rfl, ?_, ?_, ?_⟩
  · intro c hc
    rcases exQuot_components hc with rfl | rfl
    · exact ⟨exGate_reducible (.inr rfl), exGate_agree⟩
    · exact ⟨exEvery_reducible (.inr (.inl ⟨rfl, rfl⟩)), exEvery_agree⟩
  · intro c hc
    rw [List.mem_singleton.1 hc]
    exact ⟨exEvery_reducible (.inr (.inr ⟨rfl, rfl⟩)), exEvery_agree⟩
  · intro _ ins h i hi c hc
    have := reportedIn_of h
    rw [exQuot_reported.2.1] at this
    cases this
    simp only [List.mem_cons, ClockInstr.remove.injEq, List.not_mem_nil, or_false] at hi
    exact exQuot_harmless hi hc
  · intro _ ins h i hi c hc
    have := reportedIn_of h
    rw [exQuot_reported.2.2] at this
    cases this
    rw [List.mem_singleton.1 hc]
    simp only [List.mem_cons, ClockInstr.remove.injEq, List.not_mem_nil, or_false] at hi
    refine harmless_other ?_
    simp only [exEvery, List.map_cons, List.map_nil, List.mem_singleton]
    omega
  · intro _ cl cr h1 h2 c cs cs' h3
    have := reportedIn_of h1
    rw [exQuot_reported.2.1] at this
    cases this
    simp at h3

theorem exQuot_lined : exQuotRecipe.Lined := by
  refine ⟨trivial, trivial, rfl, ?_⟩
  intro c hc e he hs
  rw [List.mem_singleton.1 hc] at he
  simp only [exEvery, List.mem_cons, List.not_mem_nil, or_false] at he
  rcases he with rfl | rfl <;> cases hs

theorem exQuot_tame {d : Nat} (hd : d = 4 ∨ d = 5) {c : Component} (hc : c ∈ exQuotRecipe.components) : c.Tame (FedD d) := by
  rcases hd with rfl | rfl <;> rcases exQuot_components hc with rfl | rfl
  all_goals
    refine ⟨Component.plain_of_plainB (by decide), id, 0, _, fun _ => .refl _, getOk_eq (by decide +kernel),
      CompComp.past_of_pastB (by decide +kernel), CompComp.open_of_openB ?_ (by decide +kernel)⟩
  · exact (Sys.Accepted.comp (c := exGate 1) (Component.ok_of_okB (by decide)) (fun _ => .refl _) (getOk_eq _)).good
  · exact (Sys.Accepted.comp (c := exEvery 3) (Component.ok_of_okB (by decide)) (fun _ => .refl _) (getOk_eq _)).good
  · exact (Sys.Accepted.comp (c := exGate 1) (Component.ok_of_okB (by decide)) (fun _ => .refl _) (getOk_eq _)).good
  · exact (Sys.Accepted.comp (c := exEvery 3) (Component.ok_of_okB (by decide)) (fun _ => .refl _) (getOk_eq _)).good

theorem exEvery_tame : (exEvery 5).Tame (FedD 5) :=
  ⟨Component.plain_of_plainB (by decide), id, 0, _, fun _ => .refl _, getOk_eq (by decide +kernel),
      CompComp.past_of_pastB (by decide +kernel), CompComp.open_of_openB
      (Sys.Accepted.comp (c := exEvery 5) (Component.ok_of_okB (by decide)) (fun _ => .refl _) (getOk_eq _)).good
      (by decide +kernel)⟩

theorem exQuot_good : exQuotRecipe.GoodQuotients (FedD 4) :=
  ⟨exQuot_lined, fun _ c hc => by
    obtain ⟨order, id, x, ho, hx, hp, _⟩ := (exQuot_tame (.inl rfl) hc).compiled
    exact ⟨order, id, x, ho, hx, hp⟩⟩

/-- The system of a recipe. -/
def builtIn (d : Nat) (r : Recipe) : Res (Sys (FedD d)) := do
  let (s, _) ← r.compile (envK (FedD d)) 0
  .ok s

theorem builtIn_means {d : Nat} {r : Recipe} {s : Sys (FedD d)} (h : builtIn d r = .ok s) : r.Means s := by
  obtain ⟨⟨s', j⟩, h1, h⟩ := bind_ok h
  cases h
  exact ⟨envK _, 0, j, envK_perm, h1⟩

def sysQuot4 : Sys (FedD 4) := getOk (builtIn 4 exQuotRecipe) (by decide +kernel)
def sysQuot5 : Sys (FedD 5) := getOk (builtIn 5 exQuotRecipe) (by decide +kernel)
def sysEvery5 : Sys (FedD 5) := getOk (builtIn 5 (.component (exEvery 5) none)) (by decide +kernel)

/-- Non-vacuity: `determinism: T \\ S` is answered with yes for a system with three clocks, and `T \\ S`, with four clocks, is
deterministic. -/
example : (plainQueries (Z := FedD) true).run loadGates (.determinism exQuotExpr) = .ok (.determinism 3 none) ∧
    sysQuot4.ts.Deterministic := by
  have h : (plainQueries (Z := FedD) true).run loadGates (.determinism exQuotExpr) = .ok (.determinism 3 none) :=
    determinism_answer (by decide +kernel)
  exact ⟨h, C64_determinism_partial dim_fedD (plainQueries true) (plainQueries_fair _) loadGates loadGates_numbered _ _ 4
    (some 4) exQuot_recipes.1 exQuot_askable exQuot_good sysQuot4 (builtIn_means (getOk_eq _)) 3 h⟩

/-- Non-vacuity: `T \\ S <= S` is answered with no (`a` is an input of the quotient), and it is no refinement. -/
example : ¬ Refines sysQuot5.ts sysEvery5.ts := by
  obtain ⟨f, hf, hp⟩ := refinementAnswer_no (d := 4)
    (x := (plainQueries true).run loadGates (.refinement exQuotExpr (.component "S" none))) (by decide +kernel)
  have := C64_exact_partial dim_fedD (plainQueries true) (plainQueries_fair _) loadGates loadGates_numbered _ _ _ _ 5 (some 4)
    exQuot_recipes.2 exQuot_comparable exQuot_lined trivial (fun c hc => exQuot_tame (.inr rfl) hc)
    (fun c hc => by rw [List.mem_singleton.1 hc]; exact exEvery_tame) sysQuot5 sysEvery5 (builtIn_means (getOk_eq _))
    (builtIn_means (getOk_eq _)) ?_ 4 (some f) hp hf
  · exact fun h => by cases this.2 h
  · intro l m _ hm d hd
    have h1 : sysEvery5.ts.initialLoc = .ok (some (.leaf (.simple "N0") none .initial)) := rfl
    rw [h1] at hm
    cases hm
    exact ⟨hd.1, fun e _ _ i hi => by cases hi⟩

end Reveaal
