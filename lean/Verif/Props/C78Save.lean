import Verif.Props.C78Query
import Verif.Props.C64Save
import Verif.Props.C59Saving

/-!
# C78: saving a system as a component never crashes
-/

namespace Reveaal
open ZoneLib

section
variable {F : Type} [ZoneLib F]

/-- The declarations of the clock of a quotient. -/
def quotientDecls (q : Nat) : Decls := ⟨[], [("quotient_xnew", q)]⟩

/-- The declarations of a system are those of its components, and one for the clock of every quotient. -/
theorem Recipe.compile_decls {r : Recipe} : ∀ {env : CompileEnv F} {i j : Nat} {s : Sys F}, r.compile env i = .ok (s, j) →
    ∀ d, d ∈ s.decls ↔ (∃ c ∈ r.components, d = c.decls) ∨ ∃ q ∈ r.quotientClocks, d = quotientDecls q := by
  have pair : ∀ {a b : List Component} {A B : List Nat} {d : Decls} {x y : List Decls},
      (d ∈ x ↔ (∃ c ∈ a, d = c.decls) ∨ ∃ q ∈ A, d = quotientDecls q) →
      (d ∈ y ↔ (∃ c ∈ b, d = c.decls) ∨ ∃ q ∈ B, d = quotientDecls q) →
      (d ∈ x ++ y ↔ (∃ c ∈ a ++ b, d = c.decls) ∨ ∃ q ∈ A ++ B, d = quotientDecls q) := by
    intro a b A B d x y h1 h2
    simp only [List.mem_append, h1, h2, or_and_right, exists_or]
    exact or_or_or_comm
  induction r with
  | composition l r ihl ihr =>
    intro env i j s h d
    obtain ⟨⟨sl, k⟩, h1, h⟩ := bind_ok h
    obtain ⟨⟨sr, k'⟩, h2, h⟩ := bind_ok h
    obtain ⟨s', h3, h⟩ := bind_ok h
    cases h
    obtain ⟨_, rfl⟩ := Sys.newComposition_eq h3
    exact pair (ihl (env := env.sub false) h1 d) (ihr (env := env.sub true) h2 d)
  | conjunction l r ihl ihr =>
    intro env i j s h d
    obtain ⟨⟨sl, k⟩, h1, h⟩ := bind_ok h
    obtain ⟨⟨sr, k'⟩, h2, h⟩ := bind_ok h
    obtain ⟨s', h3, h⟩ := bind_ok h
    cases h
    obtain ⟨_, _, rfl⟩ := Sys.newConjunction_eq (newConjunction_unchecked h3)
    exact pair (ihl (env := env.sub false) h1 d) (ihr (env := env.sub true) h2 d)
  | quotient l r q ihl ihr =>
    intro env i j s h d
    obtain ⟨⟨sl, k⟩, h1, h⟩ := bind_ok h
    obtain ⟨⟨sr, k'⟩, h2, h⟩ := bind_ok h
    obtain ⟨s', h3, h⟩ := bind_ok h
    cases h
    obtain ⟨_, rfl⟩ := Sys.newQuotient_eq (newQuotient_unchecked h3)
    have h4 := pair (pair
      (ihl (env := env.sub false) h1 d) (ihr (env := env.sub true) h2 d))
      (show d ∈ [quotientDecls q] ↔ (∃ c ∈ [], d = Component.decls c) ∨ ∃ p ∈ [q], d = quotientDecls p by simp)
    rw [List.append_nil] at h4
    exact h4
  | component c id =>
    intro env i j s h d
    obtain ⟨x, h1, h⟩ := bind_ok h
    cases h
    have hd : x.decls = c.decls := by
      unfold CompComp.compile CompComp.compileWith at h1
      split at h1
      · cases h1
      obtain ⟨locs0, _, h1⟩ := bind_ok h1
      obtain ⟨edges, _, h1⟩ := bind_ok h1
      cases h1
      rfl
    show d ∈ [x.decls] ↔ (∃ c' ∈ [c], d = c'.decls) ∨ ∃ q ∈ [], d = _
    simp [hd]

/-- The clocks of the recipe and of its quotients are all there are. -/
def Recipe.Covers (r : Recipe) (d : Nat) : Prop := ∀ i, 0 < i → i < d + 1 → i ∈ r.clockIndices ∨ i ∈ r.quotientClocks

/-- No clock of the components has a name that ends in a digit. -/
def Recipe.PlainNames (r : Recipe) : Prop := ∀ c ∈ r.components, ∀ p ∈ c.decls.clocks, NoDigitEnd p.1

theorem Recipe.Covers.clocks {r : Recipe} {d : Nat} (h : r.Covers d) {env : CompileEnv F} {i j : Nat} {s : Sys F}
    (hs : r.compile env i = .ok (s, j)) {k : Nat} (h0 : 0 < k) (hk : k < d + 1) : k ∈ s.clocks := by
  rw [← s.decls_clocks]
  rcases h k h0 hk with h | h
  · obtain ⟨c, hc, hm⟩ := List.mem_flatMap.1 h
    exact ⟨c.decls, (Recipe.compile_decls hs _).2 (.inl ⟨c, hc, rfl⟩), hm⟩
  · exact ⟨_, (Recipe.compile_decls hs _).2 (.inr ⟨k, h, rfl⟩), by simp [quotientDecls]⟩

theorem Recipe.PlainNames.decls {r : Recipe} (h : r.PlainNames) {env : CompileEnv F} {i j : Nat} {s : Sys F}
    (hs : r.compile env i = .ok (s, j)) : ∀ d ∈ s.decls, ∀ p ∈ d.clocks, NoDigitEnd p.1 := by
  intro d hd p hp
  rcases (Recipe.compile_decls hs d).1 hd with ⟨c, hc, rfl⟩ | ⟨q, _, rfl⟩
  · exact h c hc p hp
  · rw [show p = ("quotient_xnew", q) from List.mem_singleton.1 hp]
    exact NoDigitEnd.of_bool (n := "quotient_xnew") (by decide +kernel)

/-- **C78** A system with distinct clock names, none of which ends in a digit, is saved without a crash if the zones have
no further clocks. -/
theorem C78_save {s : Sys F} (hs : s.Accepted) (hd : s.NamesDistinct) (hdig : ∀ d ∈ s.decls, ∀ p ∈ d.clocks, NoDigitEnd p.1)
    (hall : ∀ i, 0 < i → i < dim F → i ∈ s.clocks) {ord : ActionOrder F} (ho : ord.For s) (name : String) (p : Prop) :
    EndsWell p fun n => getComponent s ord n name := by
  obtain ⟨N, r, hr, h⟩ := C59_get_component hs ho name
  obtain ⟨locs, h1, _⟩ := hs.good.all
  refine ⟨N, r, ?_, h⟩
  have := h (max N locs.length) (le_max_left _ _)
  dsimp only at this
  rw [← this]
  rcases C30_total hs hd hdig hall ho h1 (fuel := max N locs.length) (by omega) name with ⟨c, hc⟩ | hc
  · rw [hc]; trivial
  · rw [hc]; exact rfl

end

/-! ## The clocks of a query -/

theorem recipe_quotient {load : String → Res Component} : ∀ {e : SysExpr} {d d' : Nat} {q q' : Option Nat} {r : Recipe},
    getSystemRecipe load e d q = .ok (r, d', q') → ∀ i, q' = some i → q = some i ∨ i ∈ r.quotientClocks
  | .component n id, d, d', q, q', r, h, i, hi => by
    obtain ⟨c, _, h⟩ := bind_ok h
    cases h
    exact .inl hi
  | .composition a b, d, d', q, q', r, h, i, hi => by
    obtain ⟨⟨l, d1, q1⟩, h1, h⟩ := bind_ok h
    obtain ⟨⟨m, d2, q2⟩, h2, h⟩ := bind_ok h
    cases h
    rcases recipe_quotient h2 i hi with h | h
    · rcases recipe_quotient h1 i h with h | h
      · exact .inl h
      · exact .inr (List.mem_append_left _ h)
    · exact .inr (List.mem_append_right _ h)
  | .conjunction a b, d, d', q, q', r, h, i, hi => by
    obtain ⟨⟨l, d1, q1⟩, h1, h⟩ := bind_ok h
    obtain ⟨⟨m, d2, q2⟩, h2, h⟩ := bind_ok h
    cases h
    rcases recipe_quotient h2 i hi with h | h
    · rcases recipe_quotient h1 i h with h | h
      · exact .inl h
      · exact .inr (List.mem_append_left _ h)
    · exact .inr (List.mem_append_right _ h)
  | .quotient a b, d, d', q, q', r, h, i, hi => by
    obtain ⟨⟨l, d1, q1⟩, h1, h⟩ := bind_ok h
    obtain ⟨⟨m, d2, q2⟩, h2, h⟩ := bind_ok h
    cases q2 with
    | some k =>
      cases h
      cases hi
      exact .inr (List.mem_append_right _ (.head _))
    | none =>
      cases h
      cases hi
      exact .inr (List.mem_append_right _ (.head _))

theorem getRecipes_covers {load : String → Res Component} (hload : ∀ n c, load n = .ok c → c.decls.Numbered) {e : SysExpr}
    {r : Recipe} {d : Nat} {q : Option Nat} (h : getRecipes load [e] 0 none = .ok ([r], d, q)) :
    r.Covers d ∧ (∀ i, q = some i → i ∈ r.quotientClocks) := by
  obtain ⟨hnum, _⟩ := C60_numbered hload h
  obtain ⟨⟨r0, d1, q1⟩, ha, h⟩ := bind_ok h
  cases h
  have hq : ∀ i, q = some i → i ∈ r.quotientClocks := fun i hi => (recipe_quotient ha i hi).resolve_left (by rintro ⟨⟩)
  exact ⟨fun i h0 hi => (((numbering hnum).2.2.1 i).2 ⟨h0, hi⟩).imp_right (hq i), hq⟩

variable {Z : Nat → Type} [∀ d, ZoneLib (Z d)]

/-- Clock reduction leaves no gap in the numbers of the clocks. -/
theorem QueryEnv.reduceOne_covers (hZ : ∀ d, dim (Z d) = d + 1) (X : QueryEnv Z) {r r' : Recipe} {d d' : Nat}
    {q : Option Nat} (he : (X.analysed d).Perm) (hnum : (r.clockIndices ++ q.toList).Perm (List.range' 1 d))
    (hqr : ∀ i ∈ r.quotientClocks, q = some i) (hrq : ∀ i, q = some i → i ∈ r.quotientClocks) (hc : X.Askable r d q)
    (h : X.reduceOne r d q = .ok (r', d')) : r'.Covers d' := by
  obtain ⟨hnd, hfresh, hmem, hlen⟩ := numbering hnum
  have same : r.Covers d := fun i h0 hi => ((hmem i).2 ⟨h0, hi⟩).imp_right (hrq i)
  unfold QueryEnv.reduceOne at h
  split at h
  · rename_i hred
    unfold clockReduce at h
    split at h
    · rw [ok_bind] at h
      cases h
      exact same
    · dsimp only at h
      obtain ⟨⟨r1, o, d1⟩, h1, h⟩ := bind_ok h
      obtain ⟨⟨r2, d2⟩, h2, h1⟩ := bind_ok h1
      cases h1
      cases h
      have h3 := h2
      unfold clockReduceSingle at h3
      obtain ⟨⟨s, j⟩, hs, h3⟩ := bind_ok h3
      obtain ⟨ins, hins, h3⟩ := bind_ok h3
      clear h3
      have hby : ReducedBy (Z d) r q ins := ⟨fun c hm => by rw [hZ]; exact (hc.comps c hm).1, fun _ c hm => (hc.comps c hm).2,
        hqr, hc.harmless hred ins ⟨s, j, hs, hins⟩⟩
      have hm := hc.merge hred ins ⟨s, j, hs, hins⟩
      obtain ⟨rem, reps, f, d3, g, n, S, e, ⟨hnodup, hgone, hd⟩, -, -, -, -, -, hreps, hinj, hrange, hS, hn, hq'⟩ :=
        clockReduceSingle_form (X.analysed d) he X.order (X.acts d) r d q hnum (hZ d) (by rw [hZ]; exact hc.small) s j hs ins
        hins hby (.inr hm)
      rw [h2] at e
      obtain ⟨rfl, e⟩ := Prod.mk.inj (Except.ok.inj e)
      subst d3
      obtain rfl := hreps hm
      have hst : standIn [] = id := by funext x; rfl
      rw [hst, Function.comp_id]
      rw [hst] at hS
      simp only [List.flatMap_nil, List.append_nil] at hnodup hgone hd
      have hL := length_without hnd hnodup hgone
      have hidx : (r.reshape (Component.reduced rem f) (if q.isSome then fun _ => d2 else id)).clockIndices =
          (r.clockIndices.filter fun i => !(rem.contains i)).map f := by
        rw [← clockIndices_reduced fun c hm => ((hc.comps c hm).1.savable).clocks]
        unfold Recipe.clockIndices
        rw [Recipe.reshape_components, mapComponents_components]
      have hnd' : ((r.clockIndices.filter fun i => !(rem.contains i)).map f).Nodup := by
        refine List.Nodup.map_on (fun x hx y hy => hinj x ?_ y ?_) (hnd.filter _)
        · obtain ⟨a, b⟩ := List.mem_filter.1 hx
          exact hS x a (by simpa using b)
        · obtain ⟨a, b⟩ := List.mem_filter.1 hy
          exact hS y a (by simpa using b)
      have hsub : (r.clockIndices.filter fun i => !(rem.contains i)).map f ⊆ List.range' 1 n := by
        intro k hk
        obtain ⟨x, hx, rfl⟩ := List.mem_map.1 hk
        obtain ⟨a, b⟩ := List.mem_filter.1 hx
        have := hrange _ (hS x a (by simpa using b))
        rw [List.mem_range'_1]
        simp only [id] at this
        omega
      have hsp := List.subperm_of_subset hnd' hsub
      have full : ∀ k, 0 < k → k ≤ n → n ≤ (r.clockIndices.filter fun i => !(rem.contains i)).length →
          k ∈ (r.clockIndices.filter fun i => !(rem.contains i)).map f := by
        intro k h0 hk hlen'
        refine (hsp.perm_of_length_le (by rw [List.length_range', List.length_map]; exact hlen')).mem_iff.2 ?_
        rw [List.mem_range'_1]
        omega
      have hle := hsp.length_le
      rw [List.length_range', List.length_map] at hle
      intro k h0 hk
      have hk : k < d2 + 1 := hk
      dsimp only
      rw [hidx]
      cases hqc : q with
      | none =>
        rw [hqc] at hlen
        simp only [Option.toList_none, List.length_nil] at hlen
        exact .inl (full k h0 (by omega) (by omega))
      | some i =>
        have hi := hrq i hqc
        obtain ⟨a1, a2, a3⟩ := hq' i hi
        rw [hqc] at hlen
        simp only [Option.toList_some, List.length_singleton] at hlen
        by_cases hkd : k = d2
        · right
          rw [Recipe.reshape_quotientClocks, hkd]
          rw [hqc] at a1
          exact List.mem_map.2 ⟨i, hi, a1⟩
        · exact .inl (full k h0 (by omega) (by omega))
  · cases h
    exact same

theorem Recipe.PlainNames.reshape {r : Recipe} (h : r.PlainNames)
    (hn : ∀ c ∈ r.components, (c.decls.clocks.map (·.1)).Nodup) (rem : List Nat) (f k : Nat → Nat) :
    (r.reshape (Component.reduced rem f) k).PlainNames := by
  intro c hc p hp
  rw [Recipe.reshape_components] at hc
  obtain ⟨c0, hc0, rfl⟩ := List.mem_map.1 hc
  obtain ⟨x, hx, rfl⟩ := List.mem_map.1 hp
  rw [without_clocks (hn c0 hc0)] at hx
  exact h c0 hc0 x (List.mem_filter.1 hx).1

/-- **C78** (partial) The query that saves a system of complete components as a component ends, with the component or
with an error message that refuses the system; the only crash is an overflow of constants.  If clocks are reduced, all
components must have an initial location.  Clock names may not end in a digit, else the clock map can lose a clock
(`C78_violated_lost_name`). -/
theorem C78_get_component_partial (hZ : ∀ d, dim (Z d) = d + 1) (hfin : ∀ d, FiniteExtrapolation (Z d)) (X : QueryEnv Z)
    (hX : X.Fair) (hX' : X.FairSaves)
    (load : String → Res Component) (hload : ∀ n c, load n = .ok c → c.decls.Numbered) (e : SaveExpr)
    (r : Recipe) (d : Nat) (q : Option Nat) (hr : getRecipes load [e.system] 0 none = .ok ([r], d, q))
    (hc : ∀ n, (X.withFuel n).Askable r d q) (hcc : ∀ c ∈ r.components, c.Complete) (hn : r.PlainNames)
    (hst : X.reduce = true → d ≠ 0 → r.Starts) (hr1 : r.FairEnv (X.analysed d))
    (henv : ∀ n r' d', (X.withFuel n).reduceOne r d q = .ok (r', d') → r'.FairEnv (X.compiled d')) :
    EndsWell (X.Refuses r d q) fun n => (X.withFuel n).run load (.getComponent e) := by
  obtain ⟨hnum, hqr⟩ := C60_numbered hload hr
  obtain ⟨hcov, hrq⟩ := getRecipes_covers hload hr
  refine (QueryEnv.system_endsWell hZ hfin X hX load hload e.system r d q hr hc hcc hst hr1 henv).bind fun x N hx => ?_
  obtain ⟨d', s'⟩ := x
  have hx := hx N le_rfl
  obtain ⟨⟨r0, d1, q1⟩, ha, hr⟩ := bind_ok hr
  cases hr
  unfold QueryEnv.system at hx
  rw [ha, ok_bind] at hx
  dsimp only at hx
  unfold QueryEnv.systemOf at hx
  obtain ⟨⟨r', d2⟩, h1, hx⟩ := bind_ok hx
  obtain ⟨⟨s2, j⟩, h2, hx⟩ := bind_ok hx
  cases hx
  obtain ⟨ρ, a⟩ := (X.withFuel N).reduceOne_form hZ (hX.compiled d).1 hnum (hc N).small (hc N).comps hqr (hc N).harmless
    (hc N).merge h1
  have hcov' := (X.withFuel N).reduceOne_covers hZ (hX.compiled d).1 hnum hqr hrq (hc N) h1
  have hperm : ((X.withFuel N).compiled d').Perm := (hX.compiled d').2.2.1
  rw [← hZ, ← hZ] at a
  have hacc := Recipe.compile_accepted hperm a.ok' h2
  have hsav : ∀ c ∈ r'.components, c.Savable := by
    obtain ⟨rem, g, k, q', rfl, h', _⟩ := a.form
    intro c hm
    rw [Recipe.reshape_components] at hm
    obtain ⟨c0, hm0, rfl⟩ := List.mem_map.1 hm
    exact ((hc N).comps c0 hm0).1.savable.reduced rem g
  have hpl : r'.PlainNames := by
    obtain ⟨rem, g, k, q', rfl, h', _⟩ := a.form
    exact hn.reshape (fun c hm => ((hc N).comps c hm).1.savable.clocks) rem g k
  obtain ⟨_, hdist, _⟩ := Recipe.compile_names hperm a.ok' hsav h2
  refine EndsWell.bind (f := fun n => (X.withFuel n).componentOf false ⟨d', s'⟩ e.name) ?_ fun _ _ _ => .const trivial
  exact C78_save hacc hdist (hpl.decls h2) (fun i h0 hi => hcov'.clocks h2 h0 (by rw [← hZ]; exact hi)) (hX'.saved d' s') _ _

/-! ## Concrete cases -/

/-- Non-vacuity: the query that saves `A`, one of whose two clocks is superfluous and removed before. -/
example : EndsWell ((plainQueries (Z := FinD) true).Refuses (.component exClient none) 2 none) fun n =>
      ((plainQueries (Z := FinD) true).withFuel n).run loadTwo (.getComponent ⟨.component "A" none, some "C"⟩) := by
  refine C78_get_component_partial (fun _ => rfl) (fun d => closureLib_finite (finDBase d)) _ (plainQueries_fair _)
    (plainQueries_saves _) loadTwo loadTwo_numbered _ (.component exClient none) 2 none rfl
    exOne_askable_always ?_ ?_ ?_ trivial ?_
  · intro c hc
    rw [List.mem_singleton.1 hc]
    exact exClient_complete
  · have : ∀ c ∈ (Recipe.component exClient none).components, ∀ p ∈ c.decls.clocks,
        (p.1.toList.getLast?.all fun c => !c.isDigit) = true := by decide +kernel
    exact fun c hc p hp => NoDigitEnd.of_bool (this c hc p hp)
  · intro _ _ c hc
    rw [List.mem_singleton.1 hc]
    exact ⟨_, .head _, rfl⟩
  · intro n r' d' h
    obtain ⟨ρ, a⟩ := ((plainQueries (Z := FinD) true).withFuel n).reduceOne_form (fun _ => rfl)
      (((plainQueries_fair true).withFuel n).compiled 2).1 (q := none) (.refl _) (by decide) (exOne_askable_always n).comps
      (fun i hi => by cases hi) (exOne_askable_always n).harmless (exOne_askable_always n).merge h
    obtain ⟨_, _, _, _, rfl, _⟩ := a.form
    exact trivial

theorem crash_of {x : Res (QueryOutcome FedD)} (h : crashes x = true) :
    ∃ m, x = .error (.panic m) ∧ m ≠ "arithmetic overflow" := by
  unfold crashes at h
  split at h
  · exact ⟨_, rfl, of_decide_eq_true h⟩
  · cases h

def exLosing : Component := ⟨"L", ⟨[], [("x", 1), ("x1", 2)]⟩, [⟨"L0", none, .initial, "NORMAL"⟩],
  [⟨"e", "L0", "L0", .output, some (.le (.var "x1") (.int 3)), some [⟨"x", .int 0⟩], "out"⟩,
    ⟨"f", "L0", "L0", .output, some (.ge (.var "x") (.int 2)), some [⟨"x1", .int 0⟩], "put"⟩]⟩

def exTaking : Component := ⟨"R", ⟨[], [("x", 1)]⟩, [⟨"R0", none, .initial, "NORMAL"⟩],
  [⟨"e", "R0", "R0", .output, some (.ge (.var "x") (.int 1)), some [⟨"x", .int 0⟩], "tick"⟩]⟩

def loadLosing : String → Res Component := fun n =>
  if n = "L" then .ok exLosing else if n = "R" then .ok exTaking else .error (.err "unknown")

def losing : SysExpr := .composition (.component "L" none) (.component "R" none)

/-- Whether the query is answered -/
def answers : Res (QueryOutcome FedD) → Bool
  | .ok _ => true
  | _ => false

/-- **C78** does not extend to all clock names: of `L`, with the clocks `x` and `x1`, and `R`, with a clock `x`, the
composition is a system that other queries answer questions about, but saving it crashes.  The clock `x` of `R` is called
`x1` in the component, and the clock `x1` of `L` has no name. -/
theorem C78_violated_lost_name : exLosing.decls.Numbered ∧ exTaking.decls.Numbered ∧ exLosing.Complete ∧ exTaking.Complete ∧
    ∀ b, answers ((plainQueries (Z := FedD) b).run loadLosing (.consistency losing)) = true ∧
      answers ((plainQueries (Z := FedD) b).run loadLosing (.determinism losing)) = true ∧
      ∃ m, (plainQueries (Z := FedD) b).run loadLosing (.getComponent ⟨losing, some "C"⟩) = .error (.panic m) ∧
        m ≠ "arithmetic overflow" := by
  refine ⟨by unfold Decls.Numbered; decide, by unfold Decls.Numbered; decide, ?_, ?_, fun b => ?_⟩
  · refine ⟨fun e he g hg => ?_, fun l hl g hg => ?_, by decide, by decide, fun e he us hu u hu' => ?_⟩
    · simp only [exLosing, List.mem_cons, List.not_mem_nil, or_false] at he
      rcases he with rfl | rfl <;> cases hg
      · exact goodGuard_le rfl 3
      · exact goodGuard_ge rfl 2
    · rw [List.mem_singleton.1 hl] at hg
      cases hg
    · simp only [exLosing, List.mem_cons, List.not_mem_nil, or_false] at he
      rcases he with rfl | rfl <;> cases hu <;> rw [List.mem_singleton.1 hu'] <;> exact ⟨⟨0, rfl⟩, by decide⟩
  · refine ⟨fun e he g hg => ?_, fun l hl g hg => ?_, by decide, by decide, fun e he us hu u hu' => ?_⟩
    · rw [List.mem_singleton.1 he] at hg
      cases hg
      exact goodGuard_ge rfl 1
    · rw [List.mem_singleton.1 hl] at hg
      cases hg
    · rw [List.mem_singleton.1 he] at hu
      cases hu
      rw [List.mem_singleton.1 hu']
      exact ⟨⟨0, rfl⟩, by decide⟩
  · cases b <;> exact ⟨by decide +kernel, by decide +kernel, crash_of (by decide +kernel)⟩

/-- A component that must leave its location and cannot. -/
def exDoomed2 : Component := ⟨"A", ⟨[], [("x", 1)]⟩, [⟨"L0", some (.le (.var "x") (.int 5)), .initial, "NORMAL"⟩], []⟩

def loadDoomed : String → Res Component := fun n => if n = "A" then .ok exDoomed2 else .error (.err "unknown")

/-- **C78** fails for pruning: a complete component that is inconsistent cannot be pruned, the query crashes instead of
giving an error message. -/
theorem C78_violated_prune : exDoomed2.decls.Numbered ∧ exDoomed2.Complete ∧
    ∀ b, answers ((plainQueries (Z := FedD) b).run loadDoomed (.consistency (.component "A" none))) = true ∧
      ∃ m, (plainQueries (Z := FedD) b).run loadDoomed (.prune ⟨.component "A" none, some "C"⟩) = .error (.panic m) ∧
        m ≠ "arithmetic overflow" := by
  refine ⟨by unfold Decls.Numbered; decide, ⟨?_, ?_, by decide, by decide, fun e he => by cases he⟩, fun b => ?_⟩
  · intro e he
    cases he
  · intro l hl g hg
    rw [List.mem_singleton.1 hl] at hg
    cases hg
    exact goodGuard_le rfl 5
  · cases b <;> exact ⟨by decide +kernel, crash_of (by decide +kernel)⟩

end Reveaal
