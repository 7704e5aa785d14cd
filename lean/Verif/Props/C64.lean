import Verif.Lemmas.ReducedParts
import Verif.Props.C62
import Verif.Props.C59
import Verif.Spec.Build

/-!
# C64: a query is answered about the systems it names
-/

namespace Reveaal
open ZoneLib
variable {Z : Nat → Type} [∀ d, ZoneLib (Z d)]

/-- The orders are iteration orders of the sets they are used for. -/
structure QueryEnv.Fair (X : QueryEnv Z) : Prop where
  compiled : ∀ d, (X.analysed d).Perm ∧ (X.analysed' d).Perm ∧ (X.compiled d).Perm ∧ (X.compiled' d).Perm
  acts : ∀ d (s : Sys (Z d)), s.ts.IsActions (X.acts d s)
  checks : ∀ d (s : Sys (Z d)), s.ActOrders (X.checks d s) ∧ s.ActOrders (X.checks' d s)
  outs : ∀ d (s : Sys (Z d)) a, a ∈ X.outs d s ↔ a ∈ s.ts.outputs
  ins : ∀ d (s : Sys (Z d)) a, a ∈ X.ins d s ↔ a ∈ s.ts.inputs

/-- What clock reduction needs to know about one side of a query: guards and invariants that mention a clock the analysis
reports as unused never hold (see C25). -/
def QueryEnv.Harmless (X : QueryEnv Z) (d : Nat) (env : CompileEnv (Z d)) (ord : HashOrder) (r : Recipe) : Prop :=
  X.reduce = true → ∀ ins, X.Reports d env ord r ins → ∀ i, .remove i ∈ ins → ∀ c ∈ r.components, c.HarmlessFor [i]

/-- The assumptions on the two systems of a refinement query: `l` and `r` are the recipes of the systems it names, with
`d` clocks, of which `q` is the one of the quotients. -/
structure QueryEnv.Comparable (X : QueryEnv Z) (l r : Recipe) (d : Nat) (q : Option Nat) : Prop where
  /-- an index fits into the type used for them -/
  small : d + 1 ≤ 4294967295
  /-- clocks have different names in a component and are mentioned by name, guards and invariants are applied as they are
  written, and no edge assigns two values to one clock -/
  left : ∀ c ∈ l.components, c.Reducible (d + 1) ∧ c.UpdatesAgree
  right : ∀ c ∈ r.components, c.Reducible (d + 1) ∧ c.UpdatesAgree
  /-- all quotients have the same clock (C63), so only one side has quotients -/
  one : l.quotientClocks = [] ∨ r.quotientClocks = []
  harmless : X.Harmless d (X.analysed d) X.order l
  harmless' : X.Harmless d (X.analysed' d) X.order' r
  /-- a clock that stands for others on both sides is the one of the quotients -/
  merge : X.reduce = true → ∀ cl cr, X.Reports d (X.analysed d) X.order l cl →
      X.Reports d (X.analysed' d) X.order' r cr → ∀ c cs cs', .replace c cs ∈ cl → .replace c cs' ∈ cr → q = some c

/-- What a refinement query does with the systems it names. -/
theorem QueryEnv.refinement_form (hZ : ∀ d, dim (Z d) = d + 1) (X : QueryEnv Z) (hX : X.Fair)
    {load : String → Res Component} (hload : ∀ n c, load n = .ok c → c.decls.Numbered) {e e' : SysExpr} {l r : Recipe}
    {d : Nat} {q : Option Nat} (hr : getRecipes load [e, e'] 0 none = .ok ([l, r], d, q)) (hc : X.Comparable l r d q)
    {A : QueryOutcome Z} (h : X.run load (.refinement e e') = .ok A) :
    ∃ (l' r' : Recipe) (d' : Nat) (ρ σ : ClockMap) (s' t' : Sys (Z d')) (j j' : Nat) (o : Option (RefFailure (Z d'))),
      l.ReducedTo l' (d + 1) (d' + 1) ρ ∧ r.ReducedTo r' (d + 1) (d' + 1) σ ∧ s'.DisjointClocks t' ∧
      l'.compile (X.compiled d') 0 = .ok (s', j) ∧ r'.compile (X.compiled' d') j = .ok (t', j') ∧
      checkRefinement s' t' (X.checks d' s') (X.checks' d' t') (X.outs d' s') (X.ins d' t') X.fuel = .ok o ∧
      A = .refinement d' o := by
  obtain ⟨hnum, horder, hql, hqr⟩ := C60_numbered_two hload hr
  obtain ⟨⟨l0, d1, q1⟩, ha, hr⟩ := bind_ok hr
  obtain ⟨⟨bs, d2, q2⟩, hb, hr⟩ := bind_ok hr
  obtain ⟨⟨r0, d3, q3⟩, hb, h'⟩ := bind_ok hb
  cases h'
  cases hr
  have h : X.refinement load e e' = .ok A := h
  unfold QueryEnv.refinement at h
  rw [ha, ok_bind] at h
  dsimp only at h
  rw [hb, ok_bind] at h
  dsimp only at h
  unfold QueryEnv.refinementOf at h
  obtain ⟨⟨l', r', d'⟩, h1, h⟩ := bind_ok h
  obtain ⟨⟨s', j⟩, h2, h⟩ := bind_ok h
  obtain ⟨⟨t', j'⟩, h3, h⟩ := bind_ok h
  obtain ⟨o, h4, h⟩ := bind_ok h
  cases h
  obtain ⟨ρ, σ, a, b, c⟩ := X.reduceTwo_form hZ (hX.compiled d).1 (hX.compiled d).2.1 hnum horder hc.small hc.left hc.right
    hql hqr hc.one hc.harmless hc.harmless' hc.merge h1
  refine ⟨l', r', d', ρ, σ, s', t', j, j', o, a, b, ?_, h2, h3, h4, rfl⟩
  rw [← hZ, ← hZ] at a b
  intro x hx hx'
  obtain ⟨i, hi, hk⟩ := a.clocks h2 hx
  obtain ⟨i', hi', hk'⟩ := b.clocks h3 hx'
  exact c i i' x hi hi' hk hk'

/-- Reduced and unreduced system of a recipe. -/
theorem Recipe.ReducedTo.behaves {F G : Type} [ZoneLib F] [ZoneLib G] {r r' : Recipe} {ρ : ClockMap}
    (h : r.ReducedTo r' (dim F) (dim G) ρ) {env' : CompileEnv G} (he' : env'.Perm) {i' j' : Nat} {s : Sys F} {s' : Sys G}
    (hs : r.Means s) (hs' : r'.compile env' i' = .ok (s', j')) :
    s.Accepted ∧ s'.Accepted ∧ Sys.Alike ρ s s' ∧ s.ts.Indistinguishable s'.ts (r.SameValues r') ∧ s'.ts.UpdatesAgree := by
  obtain ⟨env, i, j, he, hs⟩ := hs
  have ha := Recipe.compile_accepted he h.ok hs
  have ha' := Recipe.compile_accepted he' h.ok' hs'
  have hal := h.alike he he' hs hs'
  have hco : ∀ l a ts t, s.Linked l → s.hasAction a = true → s.next l a = .ok ts → t ∈ ts → ρ.Coherent t.updates :=
    fun _ _ _ t _ _ _ _ => h.inj.coherent t.updates
  refine ⟨ha, ha', hal, ?_, hal.updatesAgree ha ha' h.fits hco (h.updatesAgree he hs)⟩
  obtain ⟨rem, g, k, q', rfl, h', rfl⟩ := h.form
  exact h'.indistinguishable he he' hs hs' (fun _ => ⟨h.inj, h.steady⟩) hco

/-- **C64** (one direction) If a refinement query is answered with yes, the first system it names refines the second,
with or without clock reduction. -/
theorem C64_refinement_partial (hZ : ∀ d, dim (Z d) = d + 1) (X : QueryEnv Z) (hX : X.Fair)
    (load : String → Res Component) (hload : ∀ n c, load n = .ok c → c.decls.Numbered) (e e' : SysExpr) (l r : Recipe)
    (d : Nat) (q : Option Nat) (hr : getRecipes load [e, e'] 0 none = .ok ([l, r], d, q)) (hc : X.Comparable l r d q)
    (s t : Sys (Z d)) (hs : l.Means s) (ht : r.Means t) (hconv : ∀ m w, t.ts.Reach m w → TimeConvex m)
    (hinit : ∀ l m, s.ts.initialLoc = .ok (some l) → t.ts.initialLoc = .ok (some m) →
      ∀ d, TS.CanDelay l zeroVal d → TS.CanDelay m zeroVal d)
    (d' : Nat) (h : X.run load (.refinement e e') = .ok (.refinement d' none)) : Refines s.ts t.ts := by
  obtain ⟨l', r', d1, ρ, σ, s', t', j, j', o, a, b, hdis, hs', ht', hck, hA⟩ := X.refinement_form hZ hX hload hr hc h
  cases hA
  rw [← hZ, ← hZ] at a b
  obtain ⟨as, as', als, is, us⟩ := a.behaves (hX.compiled d').2.2.1 hs hs'
  obtain ⟨at', at'', alt, it, ut⟩ := b.behaves (hX.compiled d').2.2.2 ht ht'
  refine (is.refines as.good as'.good at'.good at''.good it).2 ?_
  refine C16_refines_partial s' t' as' at'' hdis us ut ?_ ?_ _ _ _ _ (hX.outs d' s') (hX.ins d' t') X.fuel hck
  · intro m w hr
    obtain ⟨l, v, h1, h2, _⟩ := alt.reach_back at' at'' b.fits (fun _ _ _ t _ _ _ _ => b.inj.coherent t.updates) hr
    exact h2.convex b.fits (hconv l v h1)
  · intro l' m' hl' hm' d hd
    obtain ⟨o1, ho1, _⟩ := as.good.initial
    obtain ⟨o2, ho2, _⟩ := at'.good.initial
    rcases als.initial ho1 with ⟨_, h2⟩ | ⟨l, l1, rfl, h2, h3⟩
    · rw [show s'.ts.initialLoc = s'.initialLoc from rfl, h2] at hl'; cases hl'
    rcases alt.initial ho2 with ⟨_, h4⟩ | ⟨m, m1, rfl, h4, h5⟩
    · rw [show t'.ts.initialLoc = t'.initialLoc from rfl, h4] at hm'; cases hm'
    exact (it.initial_delay ho2 hm').1 (hinit l m ho1 ho2 d ((is.initial_delay ho1 hl').2 hd))

/-- **C64** (both directions) For systems whose components are simple enough for C55 and whose quotients are in a line, the
answer is yes exactly if the first system refines the second, unless one of the systems fails the determinism or
consistency check. -/
theorem C64_exact_partial (hZ : ∀ d, dim (Z d) = d + 1) (X : QueryEnv Z) (hX : X.Fair)
    (load : String → Res Component) (hload : ∀ n c, load n = .ok c → c.decls.Numbered) (e e' : SysExpr) (l r : Recipe)
    (d : Nat) (q : Option Nat) (hr : getRecipes load [e, e'] 0 none = .ok ([l, r], d, q)) (hc : X.Comparable l r d q)
    (hql : l.Lined) (hqr : r.Lined) (htl : ∀ c ∈ l.components, c.Tame (Z d))
    (htr : ∀ c ∈ r.components, c.Tame (Z d)) (s t : Sys (Z d)) (hs : l.Means s) (ht : r.Means t)
    (hinit : ∀ l m, s.ts.initialLoc = .ok (some l) → t.ts.initialLoc = .ok (some m) →
      ∀ d, TS.CanDelay l zeroVal d → TS.CanDelay m zeroVal d)
    (d' : Nat) (o : Option (RefFailure (Z d'))) (ho : ∀ side g, o ≠ some (.precheck side g))
    (h : X.run load (.refinement e e') = .ok (.refinement d' o)) : o = none ↔ Refines s.ts t.ts := by
  obtain ⟨l', r', d1, ρ, σ, s', t', j, j', o1, a, b, hdis, hs', ht', hck, hA⟩ := X.refinement_form hZ hX hload hr hc h
  cases hA
  rw [← hZ, ← hZ] at a b
  obtain ⟨as, as', als, is, us⟩ := a.behaves (hX.compiled d').2.2.1 hs hs'
  obtain ⟨at', at'', alt, it, ut⟩ := b.behaves (hX.compiled d').2.2.2 ht ht'
  obtain ⟨env, _, _, he, hs⟩ := hs
  obtain ⟨env', _, _, he', ht⟩ := ht
  refine Iff.trans ?_ (is.refines as.good as'.good at'.good at''.good it).symm
  refine C55_exact_partial s' t' (a.ordinary hql htl he (hX.compiled d').2.2.1 hs hs')
    (b.ordinary hqr htr he' (hX.compiled d').2.2.2 ht ht') hdis ?_ _ _ (hX.checks d' s').1 (hX.checks d' t').2 _ _
    (hX.outs d' s') (hX.ins d' t') X.fuel o ho hck
  intro l' m' hl' hm' d hd
  obtain ⟨o1, ho1, _⟩ := as.good.initial
  obtain ⟨o2, ho2, _⟩ := at'.good.initial
  rcases als.initial ho1 with ⟨_, h2⟩ | ⟨l, l1, rfl, h2, h3⟩
  · rw [show s'.ts.initialLoc = s'.initialLoc from rfl, h2] at hl'; cases hl'
  rcases alt.initial ho2 with ⟨_, h4⟩ | ⟨m, m1, rfl, h4, h5⟩
  · rw [show t'.ts.initialLoc = t'.initialLoc from rfl, h4] at hm'; cases hm'
  exact (it.initial_delay ho2 hm').1 (hinit l m ho1 ho2 d ((is.initial_delay ho1 hl').2 hd))

/-! ## Queries about one system -/

/-- The assumptions on the system of a query: `r` is its recipe, with `d` clocks, of which `q` is the one of the
quotients. -/
structure QueryEnv.Askable (X : QueryEnv Z) (r : Recipe) (d : Nat) (q : Option Nat) : Prop where
  small : d + 1 ≤ 4294967295
  comps : ∀ c ∈ r.components, c.Reducible (d + 1) ∧ c.UpdatesAgree
  harmless : X.Harmless d (X.analysed d) X.order r
  /-- no clock is merged with another -/
  merge : X.reduce = true → ∀ ins, X.Reports d (X.analysed d) X.order r ins → ∀ c cs, .replace c cs ∈ ins → q = some c

theorem QueryEnv.system_form (hZ : ∀ d, dim (Z d) = d + 1) (X : QueryEnv Z) (hX : X.Fair)
    {load : String → Res Component} (hload : ∀ n c, load n = .ok c → c.decls.Numbered) {e : SysExpr} {r : Recipe} {d : Nat}
    {q : Option Nat} (hr : getRecipes load [e] 0 none = .ok ([r], d, q)) (hc : X.Askable r d q)
    {d' : Nat} {s' : Sys (Z d')} (h : X.system load e = .ok ⟨d', s'⟩) :
    ∃ (r' : Recipe) (ρ : ClockMap) (j : Nat), r.ReducedTo r' (dim (Z d)) (dim (Z d')) ρ ∧
      r'.compile (X.compiled d') 0 = .ok (s', j) := by
  obtain ⟨hnum, hq⟩ := C60_numbered hload hr
  obtain ⟨⟨r0, d1, q1⟩, ha, hr⟩ := bind_ok hr
  cases hr
  unfold QueryEnv.system at h
  rw [ha, ok_bind] at h
  dsimp only at h
  unfold QueryEnv.systemOf at h
  obtain ⟨⟨r', d'⟩, h1, h⟩ := bind_ok h
  obtain ⟨⟨s', j⟩, h2, h⟩ := bind_ok h
  cases h
  obtain ⟨ρ, a⟩ := X.reduceOne_form hZ (hX.compiled d).1 hnum hc.small hc.comps hq hc.harmless hc.merge h1
  exact ⟨r', ρ, j, by rw [hZ, hZ]; exact a, h2⟩

/-- **C64** The system a consistency, determinism, `get-component` or `prune` query works with cannot be told apart from
the one it names. -/
theorem C64_system_partial (hZ : ∀ d, dim (Z d) = d + 1) (X : QueryEnv Z) (hX : X.Fair)
    (load : String → Res Component) (hload : ∀ n c, load n = .ok c → c.decls.Numbered) (e : SysExpr) (r : Recipe) (d : Nat)
    (q : Option Nat) (hr : getRecipes load [e] 0 none = .ok ([r], d, q)) (hc : X.Askable r d q) (s : Sys (Z d))
    (hs : r.Means s) (d' : Nat) (s' : Sys (Z d')) (h : X.system load e = .ok ⟨d', s'⟩) :
    (∃ V, s.ts.Indistinguishable s'.ts V) ∧ (s.ts.Consistent ↔ s'.ts.Consistent) ∧
    (s.ts.Deterministic ↔ s'.ts.Deterministic) := by
  obtain ⟨r', ρ, j, a, h2⟩ := X.system_form hZ hX hload hr hc h
  obtain ⟨h3, h4, _, h5, _⟩ := a.behaves (hX.compiled d').2.2.1 hs h2
  exact ⟨⟨_, h5⟩, h5.consistent h3.good h4.good, h5.deterministic h3.good h4.good⟩

/-- **C64** If a determinism query is answered with yes, the system is deterministic, if its quotients are in a line and have
operands whose invariants are deadlines. -/
theorem C64_determinism_partial (hZ : ∀ d, dim (Z d) = d + 1) (X : QueryEnv Z) (hX : X.Fair)
    (load : String → Res Component) (hload : ∀ n c, load n = .ok c → c.decls.Numbered) (e : SysExpr) (r : Recipe) (d : Nat)
    (q : Option Nat) (hr : getRecipes load [e] 0 none = .ok ([r], d, q)) (hc : X.Askable r d q)
    (hq : r.GoodQuotients (Z d)) (s : Sys (Z d)) (hs : r.Means s) (d' : Nat)
    (h : X.run load (.determinism e) = .ok (.determinism d' none)) : s.ts.Deterministic := by
  unfold QueryEnv.run at h
  obtain ⟨⟨d1, s'⟩, h1, h⟩ := bind_ok h
  obtain ⟨o, h2, h⟩ := bind_ok h
  cases h
  obtain ⟨_, _, hd⟩ := C64_system_partial hZ X hX load hload e r d q hr hc s hs d' s' h1
  obtain ⟨r', ρ, j, a, h3⟩ := X.system_form hZ hX hload hr hc h1
  obtain ⟨env, _, _, he, hs⟩ := hs
  exact hd.2 (C13_check (a.plainProduct hq he (hX.compiled d').2.2.1 hs h3) _ (hX.checks d' s').1 X.fuel h2)

/-! ## From the text of a query -/

/-- **C64** The answer to the text of a query is the answer to the query. -/
theorem C64_text_partial (X : QueryEnv Z) (load : String → Res Component) (q : QueryExpr) (hq : q.Writable) :
    X.answer load q.print = X.run load q := by
  unfold QueryEnv.answer
  rw [C51_roundtrip_partial hq]
  rfl

/-- **C64** The same for a query the way users write it, with blanks wherever they are allowed and brackets only where they
are needed. -/
theorem C64_written_partial (X : QueryEnv Z) (load : String → Res Component) (b : List Blank) (q : QueryWritten)
    (e : List Blank) (hq : q.Fine) : X.answer load (blanks b ++ (q.text ++ blanks e)) = X.run load q.meaning := by
  unfold QueryEnv.answer
  have := C62_queries_partial b q [] e hq (fun _ h => by cases h)
  rw [show QueryWritten.textRest [] ++ blanks e = blanks e from rfl] at this
  rw [this]
  rfl

/-- **C64** A text with several queries is refused: one request is one query. -/
theorem C64_several (X : QueryEnv Z) (load : String → Res Component) (b : List Blank) (q : QueryWritten)
    (qs : List (List Blank × List Blank × QueryWritten)) (e : List Blank) (hq : q.Fine) (hqs : ∀ q ∈ qs, q.2.2.Fine)
    (hne : qs ≠ []) : ∃ m, X.answer load (blanks b ++ (q.text ++ (QueryWritten.textRest qs ++ blanks e))) = .error (.err m) := by
  unfold QueryEnv.answer
  rw [C62_queries_partial b q qs e hq hqs]
  obtain ⟨q', qs', rfl⟩ := List.exists_cons_of_ne_nil hne
  exact ⟨_, rfl⟩

/-! ## Queries are answered -/

/-- The query with another bound on the number of steps of the searches. -/
def QueryEnv.withFuel (X : QueryEnv Z) (n : Nat) : QueryEnv Z :=
  { X with
    analysed := fun d => (X.analysed d).withFuel n
    analysed' := fun d => (X.analysed' d).withFuel n
    compiled := fun d => (X.compiled d).withFuel n
    compiled' := fun d => (X.compiled' d).withFuel n
    fuel := n }

theorem QueryEnv.Fair.withFuel {X : QueryEnv Z} (h : X.Fair) (n : Nat) : (X.withFuel n).Fair :=
  ⟨fun d => h.compiled d, h.acts, h.checks, h.outs, h.ins⟩

/-- The orders of the checks are orders of the actions of every component. -/
def QueryEnv.FairChecks (X : QueryEnv Z) : Prop :=
  ∀ d (s : Sys (Z d)), s.FairOrders (X.checks d s) ∧ s.FairOrders (X.checks' d s)

/-- **C64** Every refinement query ends: with an answer, an error message or a crash, but it does not run forever. -/
theorem C64_refinement_ends_partial (hZ : ∀ d, dim (Z d) = d + 1) (hfin : ∀ d, FiniteExtrapolation (Z d)) (X : QueryEnv Z)
    (hX : X.Fair) (hch : X.FairChecks)
    (load : String → Res Component) (hload : ∀ n c, load n = .ok c → c.decls.Numbered) (e e' : SysExpr) (l r : Recipe)
    (d : Nat) (q : Option Nat) (hr : getRecipes load [e, e'] 0 none = .ok ([l, r], d, q))
    (hc : ∀ n, (X.withFuel n).Comparable l r d q) (hl1 : l.FairEnv (X.analysed d)) (hr1 : r.FairEnv (X.analysed' d))
    (henv : ∀ n l' r' d', (X.withFuel n).reduceTwo l r d q = .ok (l', r', d') →
      l'.FairEnv (X.compiled d') ∧ r'.FairEnv (X.compiled' d')) :
    Terminates fun n => (X.withFuel n).run load (.refinement e e') := by
  obtain ⟨hnum, horder, hql, hqr⟩ := C60_numbered_two hload hr
  obtain ⟨⟨l0, d1, q1⟩, ha, hr⟩ := bind_ok hr
  obtain ⟨⟨bs, d2, q2⟩, hb, hr⟩ := bind_ok hr
  obtain ⟨⟨r0, d3, q3⟩, hb, h'⟩ := bind_ok hb
  cases h'
  cases hr
  have hform := fun n l' r' d' => (X.withFuel n).reduceTwo_form hZ (l := l) (r := r) (l' := l') (r' := r') (d := d) (d' := d')
    (q := q) ((hX.withFuel n).compiled d).1
    ((hX.withFuel n).compiled d).2.1 hnum horder (hc n).small (hc n).left (hc n).right hql hqr (hc n).one (hc n).harmless
    (hc n).harmless' (hc n).merge
  have hq : ∀ i, q = some i → 0 < i ∧ i < d + 1 := fun i hi => ((numbering hnum).2.2.1 i).1 (.inr hi)
  have okl : l.Ok (dim (Z d)) := by
    rw [hZ]; exact ⟨fun c hm => ((hc 0).left c hm).1.clear.ok, fun i hi => hq i (hql i hi)⟩
  have okr : r.Ok (dim (Z d)) := by
    rw [hZ]; exact ⟨fun c hm => ((hc 0).right c hm).1.clear.ok, fun i hi => hq i (hqr i hi)⟩
  show Terminates fun n => (X.withFuel n).refinement load e e'
  unfold QueryEnv.refinement
  refine Terminates.bind (Terminates.const (x := getSystemRecipe load e 0 none) (by rw [ha]; exact .ok _)) fun x _ hx => ?_
  rw [ha] at hx
  cases hx
  refine Terminates.bind (Terminates.const (x := getSystemRecipe load e' d1 q1) (by rw [hb]; exact .ok _)) fun x _ hx => ?_
  rw [hb] at hx
  cases hx
  dsimp only
  unfold QueryEnv.refinementOf
  refine Terminates.bind' (f := fun n => (X.withFuel n).reduceTwo l r d q) ?_ fun x N hN => ?_
  · unfold QueryEnv.reduceTwo
    show Terminates fun n => if X.reduce then _ else _
    split
    · refine Terminates.bind (C59_clock_reduction (hfin d) (X.analysed d) (X.analysed' d) X.order X.order' (X.acts d) l
        (some r) d q (hX.compiled d).1 (hX.compiled d).2.1 okl (fun x hx => by cases hx; exact okr) hl1
        (fun x hx => by cases hx; exact hr1)) fun x _ _ => .const ?_
      obtain ⟨_, o, _⟩ := x
      cases o with
      | none => exact .panic _
      | some _ => exact .ok _
    · exact .const (.ok _)
  · obtain ⟨l', r', d'⟩ := x
    have hred := hN N le_rfl
    obtain ⟨ρ, σ, a, b, _⟩ := hform N l' r' d' hred
    obtain ⟨f1, f2⟩ := henv N l' r' d' hred
    rw [← hZ, ← hZ] at a b
    refine Terminates.bind (C59_compile (hfin d') l' (X.compiled d') 0 (hX.compiled d').2.2.1 a.ok' f1) fun x n hx => ?_
    refine Terminates.bind (C59_compile (hfin d') r' (X.compiled' d') x.2 (hX.compiled d').2.2.2 b.ok' f2) fun y m hy => ?_
    refine Terminates.bind (C59_refinement (hfin d')
      (Recipe.compile_accepted (env := (X.compiled d').withFuel n) (hX.compiled d').2.2.1 a.ok' hx)
      (Recipe.compile_accepted (env := (X.compiled' d').withFuel m) (hX.compiled d').2.2.2 b.ok' hy) _ _
      (hch d' x.1).1 (hch d' y.1).2 _ _ (fun a ha => (hX.outs d' x.1 a).1 ha)
      (fun a ha => (hX.ins d' y.1 a).1 ha)).terminates fun o _ _ => .const (.ok _)

/-- The systems of the other queries are made in finitely many steps. -/
theorem QueryEnv.system_ends (hZ : ∀ d, dim (Z d) = d + 1) (hfin : ∀ d, FiniteExtrapolation (Z d)) (X : QueryEnv Z)
    (hX : X.Fair) (load : String → Res Component) (hload : ∀ n c, load n = .ok c → c.decls.Numbered) (e : SysExpr)
    (r : Recipe) (d : Nat) (q : Option Nat) (hr : getRecipes load [e] 0 none = .ok ([r], d, q))
    (hc : ∀ n, (X.withFuel n).Askable r d q) (hr1 : r.FairEnv (X.analysed d))
    (henv : ∀ n r' d', (X.withFuel n).reduceOne r d q = .ok (r', d') → r'.FairEnv (X.compiled d')) :
    Terminates fun n => (X.withFuel n).system load e := by
  obtain ⟨hnum, hqr⟩ := C60_numbered hload hr
  obtain ⟨⟨r0, d1, q1⟩, ha, hr⟩ := bind_ok hr
  cases hr
  have hform := fun n r' d' => (X.withFuel n).reduceOne_form hZ (r := r) (r' := r') (d := d) (d' := d') (q := q) ((hX.withFuel n).compiled d).1
    hnum (hc n).small (hc n).comps hqr (hc n).harmless (hc n).merge
  have hq : ∀ i, q = some i → 0 < i ∧ i < d + 1 := fun i hi => ((numbering hnum).2.2.1 i).1 (.inr hi)
  have okr : r.Ok (dim (Z d)) := by
    rw [hZ]; exact ⟨fun c hm => ((hc 0).comps c hm).1.clear.ok, fun i hi => hq i (hqr i hi)⟩
  unfold QueryEnv.system
  refine Terminates.bind (Terminates.const (x := getSystemRecipe load e 0 none) (by rw [ha]; exact .ok _)) fun x _ hx => ?_
  rw [ha] at hx
  cases hx
  dsimp only
  unfold QueryEnv.systemOf
  refine Terminates.bind' (f := fun n => (X.withFuel n).reduceOne r d q) ?_ fun x N hN => ?_
  · unfold QueryEnv.reduceOne
    show Terminates fun n => if X.reduce then _ else _
    split
    · exact Terminates.bind (C59_clock_reduction (hfin d) (X.analysed d) (X.analysed' d) X.order X.order' (X.acts d) r
        none d q (hX.compiled d).1 (hX.compiled d).2.1 okr (fun x hx => by cases hx) hr1
        (fun x hx => by cases hx)) fun x _ _ => .const (.ok _)
    · exact .const (.ok _)
  · obtain ⟨r', d'⟩ := x
    have hred := hN N le_rfl
    obtain ⟨ρ, a⟩ := hform N r' d' hred
    have f1 := henv N r' d' hred
    rw [← hZ, ← hZ] at a
    exact Terminates.bind (C59_compile (hfin d') r' (X.compiled d') 0 (hX.compiled d').2.2.1 a.ok' f1) fun x n hx =>
      .const (.ok _)

/-- **C64** Every consistency and determinism query ends. -/
theorem C64_checks_end_partial (hZ : ∀ d, dim (Z d) = d + 1) (hfin : ∀ d, FiniteExtrapolation (Z d)) (X : QueryEnv Z)
    (hX : X.Fair) (hch : X.FairChecks)
    (load : String → Res Component) (hload : ∀ n c, load n = .ok c → c.decls.Numbered) (e : SysExpr)
    (r : Recipe) (d : Nat) (q : Option Nat) (hr : getRecipes load [e] 0 none = .ok ([r], d, q))
    (hc : ∀ n, (X.withFuel n).Askable r d q) (hr1 : r.FairEnv (X.analysed d))
    (henv : ∀ n r' d', (X.withFuel n).reduceOne r d q = .ok (r', d') → r'.FairEnv (X.compiled d')) :
    (Terminates fun n => (X.withFuel n).run load (.consistency e)) ∧
    Terminates fun n => (X.withFuel n).run load (.determinism e) := by
  have h := QueryEnv.system_ends hZ hfin X hX load hload e r d q hr hc hr1 henv
  have acc : ∀ x n, (X.withFuel n).system load e = .ok x → x.2.Accepted := by
    rintro ⟨d', s'⟩ n hx
    obtain ⟨r', ρ, j, a, h3⟩ := (X.withFuel n).system_form hZ (hX.withFuel n) hload hr (hc n) hx
    exact Recipe.compile_accepted ((hX.withFuel n).compiled d').2.2.1 a.ok' h3
  constructor
  · refine Terminates.bind h fun x n hx => ?_
    exact Terminates.bind (C59_consistency (hfin x.1) (acc x n hx) _ (hch x.1 x.2).1).terminates fun o _ _ => .const (.ok _)
  · refine Terminates.bind h fun x n hx => ?_
    exact Terminates.bind (C59_determinism (hfin x.1) (acc x n hx) _ (hch x.1 x.2).1).terminates fun o _ _ => .const (.ok _)

/-! ## Concrete cases -/

/-- Federations over `d` clocks. -/
abbrev FedD (d : Nat) : Type := ZoneImpl.Fed (d + 1)
instance fedDLib (d : Nat) : ZoneLib (FedD d) := ZoneImpl.lib d

/-- The orders of the lists the systems store their actions in. -/
def ownOrders {F : Type} [ZoneLib F] : Sys F → List Bool → Orders
  | .comp c, _ => ⟨fun _ => mkSet ((Sys.comp c).ts.inputs ++ (Sys.comp c).ts.outputs), fun _ => (Sys.comp c).ts.inputs,
      fun _ => (Sys.comp c).ts.outputs⟩
  | .composition l r _ _ _ _ _, p | .conjunction l r _ _, p | .quotient l r _ _ _ _, p => match p with
    | false :: p => ownOrders l p
    | true :: p => ownOrders r p
    | [] => ⟨fun _ => [], fun _ => [], fun _ => []⟩

def plainQueries {Z : Nat → Type} [∀ d, ZoneLib (Z d)] (reduce : Bool) : QueryEnv Z :=
  { reduce := reduce
    analysed := fun d => envK (Z d), analysed' := fun d => envK (Z d)
    order := plainOrder, order' := plainOrder
    acts := fun _ s => mkSet (s.ts.inputs ++ s.ts.outputs)
    compiled := fun d => envK (Z d), compiled' := fun d => envK (Z d)
    checks := fun _ => ownOrders, checks' := fun _ => ownOrders
    outs := fun _ s => s.ts.outputs, ins := fun _ s => s.ts.inputs
    saved := fun _ s _ => (s.ts.inputs, s.ts.outputs)
    zoneBounds := fun _ _ => Bounds.new
    predt := fun _ z _ => z, pruned := fun _ l => l
    fuel := 20 }

/-- `u` is reset and never read. -/
def exClient : Component := ⟨"A", ⟨[], [("x", 1), ("u", 2)]⟩, [⟨"L0", some (.le (.var "x") (.int 5)), .initial, "NORMAL"⟩],
  [⟨"e", "L0", "L0", .output, some (.ge (.var "x") (.int 2)), some [⟨"x", .int 0⟩, ⟨"u", .int 0⟩], "out"⟩]⟩
def exServer (k : Int) : Component := ⟨"B", ⟨[], [("y", 1)]⟩, [⟨"M0", none, .initial, "NORMAL"⟩],
  [⟨"f", "M0", "M0", .output, some (.ge (.var "y") (.int k)), some [⟨"y", .int 0⟩], "out"⟩]⟩
/-- `B` with its clock numbered after those of `A` -/
def exServer3 (k : Int) : Component := { exServer k with decls := ⟨[], [("y", 3)]⟩ }

def loadTwo : String → Res Component := fun n =>
  if n = "A" then .ok exClient else if n = "B" then .ok (exServer 1) else if n = "C" then .ok (exServer 3) else .error (.err "unknown")


theorem mem_own {F : Type} [ZoneLib F] (s : Sys F) : s.ts.IsActions (mkSet (s.ts.inputs ++ s.ts.outputs)) :=
  ⟨nodup_mkSet _, fun a => by rw [mem_mkSet, List.mem_append]⟩

theorem ownOrders_fair {F : Type} [ZoneLib F] : ∀ s : Sys F, s.ActOrders (ownOrders s)
  | .comp c => fun _ => mem_own (.comp c)
  | .composition l r _ _ _ _ _ | .conjunction l r _ _ | .quotient l r _ _ _ _ => ⟨ownOrders_fair l, ownOrders_fair r⟩

theorem plainQueries_fair (b : Bool) : (plainQueries (Z := Z) b).Fair :=
  ⟨fun _ => ⟨envK_perm, envK_perm, envK_perm, envK_perm⟩, fun _ s => mem_own s, fun _ s => ⟨ownOrders_fair s, ownOrders_fair s⟩,
    fun _ _ _ => Iff.rfl, fun _ _ _ => Iff.rfl⟩

theorem dim_fedD (d : Nat) : dim (FedD d) = d + 1 := rfl

theorem loadTwo_numbered (n : String) (c : Component) (h : loadTwo n = .ok c) : c.decls.Numbered := by
  unfold loadTwo at h
  split at h
  · cases h; exact .refl _
  · split at h
    · cases h; exact .refl _
    · split at h
      · cases h; exact .refl _
      · cases h

theorem exClient_reducible : exClient.Reducible 4 := by
  have kx : IsClock exClient.decls (.var "x") 1 := .inr ⟨"x", rfl, by decide⟩
  refine ⟨⟨Component.ok_of_okB (by decide), ?_, ?_, by decide +kernel, by decide +kernel, by decide +kernel⟩, ⟨?_, ?_⟩,
    by decide⟩ <;> (
    intro e he g hg
    rw [List.mem_singleton.1 he] at hg
    cases hg)
  · exact .posConst (.chain (.clock kx)) rfl
  · exact .posConst (.chain (.clock kx)) rfl
  all_goals simp [BoolE.NamesOnly, Arith.NamesOnly]

theorem exServer3_reducible {k : Int} (hk : k = 1 ∨ k = 3) : (exServer3 k).Reducible 4 := by
  have ky : IsClock (exServer3 k).decls (.var "y") 3 := .inr ⟨"y", rfl, by rfl⟩
  refine ⟨⟨Component.ok_of_okB ?_, ?_, ?_, ?_, ?_, ?_⟩, ⟨?_, ?_⟩, ?_⟩
  · rcases hk with rfl | rfl <;> decide
  pick_goal 3
  · rcases hk with rfl | rfl <;> decide +kernel
  pick_goal 3
  · rcases hk with rfl | rfl <;> decide +kernel
  pick_goal 3
  · rcases hk with rfl | rfl <;> decide +kernel
  pick_goal 5
  · rcases hk with rfl | rfl <;> decide +kernel
  all_goals (
    intro e he g hg
    rw [List.mem_singleton.1 he] at hg
    cases hg)
  · exact .posConst (.chain (.clock ky)) rfl
  all_goals simp [BoolE.NamesOnly, Arith.NamesOnly]

theorem exClient_agree : exClient.UpdatesAgree := by
  intro e he us hus
  rw [List.mem_singleton.1 he] at hus
  cases hus
  decide

theorem exServer3_agree {k : Int} : (exServer3 k).UpdatesAgree := by
  intro e he us hus
  rw [List.mem_singleton.1 he] at hus
  cases hus
  intro u hu u' hu' _
  rw [List.mem_singleton.1 hu, List.mem_singleton.1 hu']

theorem exTwo_recipes : getRecipes loadTwo [.component "A" none, .component "B" none] 0 none =
    .ok ([.component exClient none, .component (exServer3 1) none], 3, none) ∧
    getRecipes loadTwo [.component "A" none, .component "C" none] 0 none =
    .ok ([.component exClient none, .component (exServer3 3) none], 3, none) := ⟨rfl, rfl⟩

/-- What the analysis reports. -/
def reported (b : Bool) (r : Recipe) : Res (List ClockInstr) := do
  let (s, _) ← r.compile (envK (FedD 3)) 0
  findRedundantClocks plainOrder s.ts ((plainQueries (Z := FedD) b).acts 3 s) 20

theorem reported_of {b : Bool} {r : Recipe} {ins : List ClockInstr}
    (h : (plainQueries (Z := FedD) b).Reports 3 (envK (FedD 3)) plainOrder r ins) : reported b r = .ok ins := by
  obtain ⟨s, j, h1, h2⟩ := h
  unfold reported
  rw [h1, ok_bind]
  exact h2

theorem exTwo_reported (b : Bool) {k : Int} (hk : k = 1 ∨ k = 3) :
    reported b (.component exClient none) = .ok [.remove 2, .remove 3] ∧
    reported b (.component (exServer3 k) none) = .ok [.remove 1, .remove 2] := by
  rcases hk with rfl | rfl <;> cases b <;> decide +kernel

theorem exTwo_comparable (b : Bool) {k : Int} (hk : k = 1 ∨ k = 3) :
    (plainQueries (Z := FedD) b).Comparable (.component exClient none) (.component (exServer3 k) none) 3 none := by
  refine ⟨by decide, ?_, ?_, .inl rfl, ?_, ?_, ?_⟩
  · intro c hc
    rw [List.mem_singleton.1 hc]
    exact ⟨exClient_reducible, exClient_agree⟩
  · intro c hc
    rw [List.mem_singleton.1 hc]
    exact ⟨exServer3_reducible hk, exServer3_agree⟩
  · intro _ ins h i hi c hc
    have := reported_of h
    rw [(exTwo_reported b hk).1] at this
    cases this
    rw [List.mem_singleton.1 hc]
    intro n j hj hn
    rw [List.mem_singleton.1 hj] at hn
    simp only [List.mem_cons, ClockInstr.remove.injEq, List.not_mem_nil, or_false] at hi
    simp only [exClient, List.mem_cons, Prod.mk.injEq, List.not_mem_nil, or_false] at hn
    obtain ⟨rfl, rfl⟩ : n = "u" ∧ i = 2 := by
      rcases hn with ⟨_, h⟩ | h
      · omega
      · exact h
    refine ⟨fun e he g hg hm => ?_, fun l hl g hg hm => ?_⟩
    · rw [List.mem_singleton.1 he] at hg
      cases hg
      simp [BoolE.hasVar, Arith.hasVar] at hm
    · rw [List.mem_singleton.1 hl] at hg
      cases hg
      simp [BoolE.hasVar, Arith.hasVar] at hm
  · intro _ ins h i hi c hc
    have := reported_of h
    rw [(exTwo_reported b hk).2] at this
    cases this
    rw [List.mem_singleton.1 hc]
    intro n j hj hn
    rw [List.mem_singleton.1 hj] at hn
    simp only [List.mem_cons, ClockInstr.remove.injEq, List.not_mem_nil, or_false] at hi
    simp only [exServer3, List.mem_cons, Prod.mk.injEq, List.not_mem_nil, or_false] at hn
    omega
  · intro _ cl cr h1 h2 c cs cs' h3
    have := reported_of h1
    rw [(exTwo_reported b hk).1] at this
    cases this
    simp at h3

def sysClient : Sys (FedD 3) := .comp (getOk (CompComp.compile id exClient 0) (by decide +kernel))
def sysServer : Sys (FedD 3) := .comp (getOk (CompComp.compile id (exServer3 1) 0) (by decide +kernel))
def sysPicky : Sys (FedD 3) := .comp (getOk (CompComp.compile id (exServer3 3) 0) (by decide +kernel))

theorem exTwo_means : (Recipe.component exClient none).Means sysClient ∧
    (Recipe.component (exServer3 1) none).Means sysServer ∧ (Recipe.component (exServer3 3) none).Means sysPicky :=
  ⟨⟨envK _, 0, 1, envK_perm, rfl⟩, ⟨envK _, 0, 1, envK_perm, rfl⟩, ⟨envK _, 0, 1, envK_perm, rfl⟩⟩

theorem sysClient_good : sysClient.Good :=
  (Sys.Accepted.comp (c := exClient) (Component.ok_of_okB (by decide)) (fun _ => .refl _) (getOk_eq _)).good
theorem sysServer_good : sysServer.Good :=
  (Sys.Accepted.comp (c := exServer3 1) (Component.ok_of_okB (by decide)) (fun _ => .refl _) (getOk_eq _)).good
theorem sysPicky_good : sysPicky.Good :=
  (Sys.Accepted.comp (c := exServer3 3) (Component.ok_of_okB (by decide)) (fun _ => .refl _) (getOk_eq _)).good

/-- Whether the answer to a refinement is yes (`none`: another answer) or not for lack of determinism or consistency, and
the number of clocks of the systems it was answered for. -/
def refinementAnswer : Res (QueryOutcome FedD) → Option (Nat × Bool)
  | .ok (.refinement d none) => some (d, true)
  | .ok (.refinement _ (some (.precheck _ _))) => none
  | .ok (.refinement d (some _)) => some (d, false)
  | _ => none

theorem refinementAnswer_yes {x : Res (QueryOutcome FedD)} {d : Nat} (h : refinementAnswer x = some (d, true)) :
    x = .ok (.refinement d none) := by
  unfold refinementAnswer at h
  split at h <;> simp at h
  subst h
  rfl

theorem refinementAnswer_no {x : Res (QueryOutcome FedD)} {d : Nat} (h : refinementAnswer x = some (d, false)) :
    ∃ f, x = .ok (.refinement d (some f)) ∧ ∀ side g, some f ≠ some (.precheck side g) := by
  unfold refinementAnswer at h
  split at h <;> simp at h
  rename_i f hf
  subst h
  exact ⟨f, rfl, fun side g e => hf side g (Option.some.inj e)⟩

theorem determinism_answer {x : Res (QueryOutcome FedD)} {d : Nat} (h : (match x with
    | .ok (.determinism d none) => some d | _ => none) = some d) : x = .ok (.determinism d none) := by
  split at h <;> simp at h
  subst h
  rfl

theorem sysServer_initial {k : Int} (hk : k = 1 ∨ k = 3) (l m : LocTree (FedD 3)) (_ : sysClient.ts.initialLoc = .ok (some l))
    (hm : (if k = 1 then sysServer else sysPicky).ts.initialLoc = .ok (some m)) (d : ℝ) (hd : TS.CanDelay l zeroVal d) :
    TS.CanDelay m zeroVal d := by
  have h1 : sysServer.ts.initialLoc = .ok (some (.leaf (.simple "M0") none .initial)) := rfl
  have h2 : sysPicky.ts.initialLoc = .ok (some (.leaf (.simple "M0") none .initial)) := rfl
  have : m = .leaf (.simple "M0") none .initial := by
    rcases hk with rfl | rfl
    · rw [if_pos rfl, h1] at hm; cases hm; rfl
    · rw [if_neg (by decide), h2] at hm; cases hm; rfl
  subst this
  exact ⟨hd.1, fun e _ _ i hi => by cases hi⟩

/-- Non-vacuity: `A <= B` is answered with yes, with clock reduction (for systems with two clocks) and without (three). -/
example : ∃ b d', (plainQueries (Z := FedD) b).run loadTwo (.refinement (.component "A" none) (.component "B" none)) =
    .ok (.refinement d' none) ∧ b = true ∧ d' < 3 := ⟨true, 2, refinementAnswer_yes (by decide +kernel), rfl, by decide⟩

example : Refines sysClient.ts sysServer.ts := by
  refine C64_refinement_partial dim_fedD (plainQueries true) (plainQueries_fair _) loadTwo loadTwo_numbered _ _ _ _ 3 none
    exTwo_recipes.1 (exTwo_comparable true (.inl rfl)) sysClient sysServer exTwo_means.1 exTwo_means.2.1 ?_
    (sysServer_initial (k := 1) (.inl rfl)) 2 (refinementAnswer_yes (by decide +kernel))
  intro m w hr
  exact Sys.convex_comp (c := exServer3 1) (Component.ok_of_okB (by decide)) (fun _ => .refl _) (getOk_eq _) (fun l hl g hg => by
    rw [List.mem_singleton.1 hl] at hg; cases hg) m (sysServer_good.reach hr).1

theorem exTwo_tame : exClient.Tame (FedD 3) ∧ (exServer3 1).Tame (FedD 3) ∧ (exServer3 3).Tame (FedD 3) :=
  ⟨⟨Component.plain_of_plainB (by decide), id, 0, _, fun _ => .refl _, getOk_eq (by decide +kernel),
      CompComp.past_of_pastB (by decide +kernel), CompComp.open_of_openB sysClient_good (by decide +kernel)⟩,
    ⟨Component.plain_of_plainB (by decide), id, 0, _, fun _ => .refl _, getOk_eq (by decide +kernel),
      CompComp.past_of_pastB (by decide +kernel), CompComp.open_of_openB sysServer_good (by decide +kernel)⟩,
    ⟨Component.plain_of_plainB (by decide), id, 0, _, fun _ => .refl _, getOk_eq (by decide +kernel),
      CompComp.past_of_pastB (by decide +kernel), CompComp.open_of_openB sysPicky_good (by decide +kernel)⟩⟩

/-- `A <= C` is answered with no, and `A` does not refine `C`. -/
example : ¬ Refines sysClient.ts sysPicky.ts := by
  obtain ⟨f, hf, hp⟩ := refinementAnswer_no (d := 2)
    (x := (plainQueries true).run loadTwo (.refinement (.component "A" none) (.component "C" none))) (by decide +kernel)
  have := C64_exact_partial dim_fedD (plainQueries true) (plainQueries_fair _) loadTwo loadTwo_numbered _ _ _ _ 3 none
    exTwo_recipes.2 (exTwo_comparable true (.inr rfl)) trivial trivial
    (fun c hc => by rw [List.mem_singleton.1 hc]; exact exTwo_tame.1)
    (fun c hc => by rw [List.mem_singleton.1 hc]; exact exTwo_tame.2.2) sysClient sysPicky exTwo_means.1 exTwo_means.2.2
    (sysServer_initial (k := 3) (.inr rfl)) 2 (some f) hp hf
  exact fun h => by cases this.2 h

/-! One system: `A` alone has two clocks, of which one is superfluous. -/

theorem exClient_reducible3 : exClient.Reducible 3 := by
  have kx : IsClock exClient.decls (.var "x") 1 := .inr ⟨"x", rfl, by decide⟩
  refine ⟨⟨Component.ok_of_okB (by decide), ?_, ?_, by decide +kernel, by decide +kernel, by decide +kernel⟩, ⟨?_, ?_⟩,
    by decide⟩ <;> (
    intro e he g hg
    rw [List.mem_singleton.1 he] at hg
    cases hg)
  · exact .posConst (.chain (.clock kx)) rfl
  · exact .posConst (.chain (.clock kx)) rfl
  all_goals simp [BoolE.NamesOnly, Arith.NamesOnly]

/-- What the analysis reports for `A` alone. -/
def reportedAlone : Res (List ClockInstr) := do
  let (s, _) ← (Recipe.component exClient none).compile (envK (FedD 2)) 0
  findRedundantClocks plainOrder s.ts ((plainQueries (Z := FedD) true).acts 2 s) 20

theorem exOne_askable : (plainQueries (Z := FedD) true).Askable (.component exClient none) 2 none := by
  have key : ∀ ins, (plainQueries (Z := FedD) true).Reports 2 (envK (FedD 2)) plainOrder (.component exClient none) ins →
      ins = [.remove 2] := by
    rintro ins ⟨s, j, h1, h2⟩
    have h : reportedAlone = .ok ins := by unfold reportedAlone; rw [h1, ok_bind]; exact h2
    have h' : reportedAlone = .ok [.remove 2] := by decide +kernel
    rw [h'] at h
    cases h
    rfl
  refine ⟨by decide, ?_, ?_, ?_⟩
  · intro c hc
    rw [List.mem_singleton.1 hc]
    exact ⟨exClient_reducible3, exClient_agree⟩
  · intro _ ins h i hi c hc
    rw [key ins h] at hi
    rw [List.mem_singleton.1 hc]
    intro n j hj hn
    rw [List.mem_singleton.1 hj] at hn
    simp only [List.mem_cons, ClockInstr.remove.injEq, List.not_mem_nil, or_false] at hi
    simp only [exClient, List.mem_cons, Prod.mk.injEq, List.not_mem_nil, or_false] at hn
    obtain ⟨rfl, rfl⟩ : n = "u" ∧ i = 2 := by
      rcases hn with ⟨_, h⟩ | h
      · omega
      · exact h
    refine ⟨fun e he g hg hm => ?_, fun l hl g hg hm => ?_⟩
    · rw [List.mem_singleton.1 he] at hg
      cases hg
      simp [BoolE.hasVar, Arith.hasVar] at hm
    · rw [List.mem_singleton.1 hl] at hg
      cases hg
      simp [BoolE.hasVar, Arith.hasVar] at hm
  · intro _ ins h c cs hm
    rw [key ins h] at hm
    simp at hm

def sysAlone : Sys (FedD 2) := .comp (getOk (CompComp.compile id exClient 0) (by decide +kernel))

/-- Non-vacuity: `determinism: A` is answered with yes for a system with one clock, and `A`, with its two clocks, is
deterministic. -/
example : (plainQueries (Z := FedD) true).run loadTwo (.determinism (.component "A" none)) = .ok (.determinism 1 none) ∧
    sysAlone.ts.Deterministic := by
  have h : (plainQueries (Z := FedD) true).run loadTwo (.determinism (.component "A" none)) = .ok (.determinism 1 none) :=
    determinism_answer (by decide +kernel)
  exact ⟨h, C64_determinism_partial dim_fedD (plainQueries true) (plainQueries_fair _) loadTwo loadTwo_numbered _ _ 2 none rfl
    exOne_askable (Recipe.goodQuotients rfl) sysAlone ⟨envK _, 0, 1, envK_perm, rfl⟩ 1 h⟩

/-- The text of the query `A <= B`, and its answer. -/
example : (QueryExpr.refinement (.component "A" none) (.component "B" none)).Writable ∧
    (plainQueries (Z := FedD) true).answer loadTwo (QueryExpr.refinement (.component "A" none) (.component "B" none)).print =
      .ok (.refinement 2 none) := by
  have h : (QueryExpr.refinement (.component "A" none) (.component "B" none)).Writable :=
    ⟨isName_of rfl (by decide), isName_of rfl (by decide)⟩
  exact ⟨h, (C64_text_partial _ _ _ h).trans (refinementAnswer_yes (by decide +kernel))⟩

/-- The same with blanks and a line break: `refinement:\n A<= B ` -/
example : (plainQueries (Z := FedD) true).answer loadTwo (blanks [] ++
      ((QueryWritten.refinement [.newline, .space] (nm "A") [] [.space] (nm "B")).text ++ blanks [.space])) =
    .ok (.refinement 2 none) :=
  (C64_written_partial _ _ [] (.refinement [.newline, .space] (nm "A") [] [.space] (nm "B")) [.space] ⟨⟨trivial, isName_of rfl (by decide)⟩, trivial, isName_of rfl (by decide)⟩).trans
    (refinementAnswer_yes (by decide +kernel))

/-- Zones over `d` clocks whose extrapolation has finitely many results. -/
def FinD (d : Nat) : Type := ZoneImpl.Fed (d + 1)
@[reducible] def finDBase (d : Nat) : ZoneLib (FinD d) := ZoneImpl.lib d
instance finDLib (d : Nat) : ZoneLib (FinD d) := closureLib (finDBase d)

theorem ownOrders_all {F : Type} [ZoneLib F] : ∀ s : Sys F, s.FairOrders (ownOrders s)
  | .comp c => fun _ => ⟨mem_own (.comp c), .refl _, .refl _⟩
  | .composition l r _ _ _ _ _ | .conjunction l r _ _ | .quotient l r _ _ _ _ => ⟨ownOrders_all l, ownOrders_all r⟩

/-- Non-vacuity: the refinement `A <= B` ends. -/
example : Terminates fun n => ((plainQueries (Z := FinD) false).withFuel n).run loadTwo
    (.refinement (.component "A" none) (.component "B" none)) := by
  refine C64_refinement_ends_partial (fun _ => rfl) (fun d => closureLib_finite (finDBase d)) _ (plainQueries_fair _)
    (fun _ s => ⟨ownOrders_all s, ownOrders_all s⟩) loadTwo loadTwo_numbered _ _ _ _ 3 none exTwo_recipes.1 (fun n => ?_)
    trivial trivial ?_
  · refine ⟨by decide, ?_, ?_, .inl rfl, (fun h => by cases h), (fun h => by cases h), fun h => by cases h⟩
    · intro c hc
      rw [List.mem_singleton.1 hc]
      exact ⟨exClient_reducible, exClient_agree⟩
    · intro c hc
      rw [List.mem_singleton.1 hc]
      exact ⟨exServer3_reducible (.inl rfl), exServer3_agree⟩
  · intro n l' r' d' h
    cases (show Except.ok _ = _ from h)
    exact ⟨trivial, trivial⟩

/-- Non-vacuity: consistency and determinism queries about `A` end. -/
example : (Terminates fun n => ((plainQueries (Z := FinD) false).withFuel n).run loadTwo (.consistency (.component "A" none))) ∧
    Terminates fun n => ((plainQueries (Z := FinD) false).withFuel n).run loadTwo (.determinism (.component "A" none)) := by
  refine C64_checks_end_partial (fun _ => rfl) (fun d => closureLib_finite (finDBase d)) _ (plainQueries_fair _)
    (fun _ s => ⟨ownOrders_all s, ownOrders_all s⟩) loadTwo loadTwo_numbered _ (.component exClient none) 2 none rfl
    (fun n => ?_) trivial ?_
  · refine ⟨by decide, ?_, (fun h => by cases h), fun h => by cases h⟩
    intro c hc
    rw [List.mem_singleton.1 hc]
    exact ⟨exClient_reducible3, exClient_agree⟩
  · intro n r' d' h
    cases (show Except.ok _ = _ from h)
    exact trivial

/-! ## A crash

Clock reduction starts at the initial location.  A component that has none is answered about as long as clock reduction is
disabled. -/

def exNowhere : Component := ⟨"N", ⟨[], [("x", 1)]⟩, [⟨"L0", some (.le (.var "x") (.int 5)), .normal, "NORMAL"⟩],
  [⟨"e", "L0", "L0", .output, some (.ge (.var "x") (.int 2)), some [⟨"x", .int 0⟩], "out"⟩]⟩

def loadNowhere : String → Res Component := fun n => if n = "N" then .ok exNowhere else .error (.err "unknown")

/-- Whether there is an answer, or else a crash -/
def outcome : Res (QueryOutcome FedD) → Option Bool
  | .ok _ => some true
  | .error (.panic _) => some false
  | _ => none

/-- **C64** does not extend to systems that start nowhere: with clock reduction their queries crash instead of being
answered as without. -/
theorem C64_violated_nowhere : (Recipe.component exNowhere none).Ok (dim (FedD 1)) ∧
    ∀ q ∈ [QueryExpr.consistency (.component "N" none), .determinism (.component "N" none),
        .refinement (.component "N" none) (.component "N" none)],
      (∃ A, (plainQueries (Z := FedD) false).run loadNowhere q = .ok A) ∧
      ∃ m, (plainQueries (Z := FedD) true).run loadNowhere q = .error (.panic m) := by
  have ok : ∀ {x : Res (QueryOutcome FedD)}, outcome x = some true → ∃ A, x = .ok A := by
    intro x h
    unfold outcome at h
    split at h <;> simp at h
    exact ⟨_, rfl⟩
  have crash : ∀ {x : Res (QueryOutcome FedD)}, outcome x = some false → ∃ m, x = .error (.panic m) := by
    intro x h
    unfold outcome at h
    split at h <;> simp at h
    exact ⟨_, rfl⟩
  refine ⟨⟨fun c hc => ?_, fun i hi => by cases hi⟩, fun q hq => ?_⟩
  · rw [List.mem_singleton.1 hc]
    exact Component.ok_of_okB (by decide)
  · simp only [List.mem_cons, List.not_mem_nil, or_false] at hq
    rcases hq with rfl | rfl | rfl <;> exact ⟨ok (by decide +kernel), crash (by decide +kernel)⟩

end Reveaal
