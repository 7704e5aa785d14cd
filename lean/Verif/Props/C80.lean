import Verif.Props.C79Expr
import Verif.Props.C47

/-!
# C80: answers to different refinement queries hang together

The same system gets other clock numbers, and lives in another number of dimensions, in every query it occurs in.  So the
systems of different queries are compared across their dimensions.
-/

namespace Reveaal
open ZoneLib

section
variable {F G H : Type} [ZoneLib F] [ZoneLib G] [ZoneLib H]

/-! ## Refinement between systems with different numbers of clocks -/

/-- As `IsRefinement`, between systems over different clocks. -/
structure IsRef (S : TS F) (T : TS G) (R : LocTree F → Val → LocTree G → Val → Prop) : Prop where
  output : ∀ {l v m w o l' v'}, R l v m w → o ∈ S.outputs → S.Act l v o l' v' →
    (o ∈ T.outputs → ∃ m' w', T.Act m w o m' w' ∧ R l' v' m' w') ∧ (o ∉ T.outputs → R l' v' m w)
  input : ∀ {l v m w i m' w'}, R l v m w → i ∈ T.inputs → T.Act m w i m' w' →
    (i ∈ S.inputs → ∃ l' v', S.Act l v i l' v' ∧ R l' v' m' w') ∧ (i ∉ S.inputs → R l v m' w')
  delay : ∀ {l v m w d}, R l v m w → TS.CanDelay l v d →
    TS.CanDelay m w d ∧ R l (delay (dim F) v d) m (delay (dim G) w d)

structure Ref (S : TS F) (T : TS G) : Prop where
  inputs : ∀ a ∈ S.inputs, a ∈ T.inputs
  outputs : ∀ a ∈ T.outputs, a ∈ S.outputs
  states : (S.initialLoc = .ok none ∧ T.initialLoc = .ok none) ∨
    ∃ l m, S.initialLoc = .ok (some l) ∧ T.initialLoc = .ok (some m) ∧
      (zeroVal ∈ InvSet l → ∃ R, IsRef S T R ∧ R l zeroVal m zeroVal)

theorem IsRef.inv {S : TS F} {T : TS G} {R : LocTree F → Val → LocTree G → Val → Prop} (h : IsRef S T R) {l : LocTree F}
    {m : LocTree G} {v w : Val} (hr : R l v m w) (hl : v ∈ InvSet l) : w ∈ InvSet m :=
  canDelay_zero.1 (h.delay hr (canDelay_zero.2 hl)).1

theorem Ref.of_refines {S T : TS F} (h : Refines S T) : Ref S T := by
  refine ⟨h.alphabets.inputs, h.alphabets.outputs, ?_⟩
  rcases h.states with h | ⟨l, m, a, b, c⟩
  · exact .inl h
  · refine .inr ⟨l, m, a, b, fun hz => ?_⟩
    obtain ⟨R, hR, h0⟩ := c hz
    exact ⟨R, ⟨hR.output, hR.input, hR.delay⟩, h0⟩

theorem Ref.refines {S T : TS F} (h : Ref S T) (h1 : ∀ a ∈ S.inputs, a ∉ T.outputs) (h2 : ∀ a ∈ S.outputs, a ∉ T.inputs) :
    Refines S T := by
  refine ⟨⟨h1, h2, h.inputs, h.outputs⟩, ?_⟩
  rcases h.states with h | ⟨l, m, a, b, c⟩
  · exact .inl h
  · refine .inr ⟨l, m, a, b, fun hz => ?_⟩
    obtain ⟨R, hR, h0⟩ := c hz
    exact ⟨R, ⟨hR.output, hR.input, hR.delay⟩, h0⟩

theorem Ref.of_indistinguishable {s : Sys F} {t : Sys G} {V : Val → Val → Prop} (hs : s.Good) (ht : t.Good)
    (h : s.ts.Indistinguishable t.ts V) : Ref s.ts t.ts := by
  refine ⟨fun a ha => by rw [h.inputs]; exact ha, fun a ha => by rw [← h.outputs]; exact ha, ?_⟩
  obtain ⟨R, h1, h2, _⟩ := h.related
  rcases h2 with h2 | ⟨l, m, a, b, c⟩
  · exact .inl h2
  refine .inr ⟨l, m, a, b, fun hz => ⟨fun l v m w => R l m ∧ V v w ∧ s.ts.Reach l v ∧ t.ts.Reach m w, ⟨?_, ?_, ?_⟩, c,
    h1.zero, .init a hz, .init b ((h1.inv _ _ c _ _ Sys.zeroVal_valid Sys.zeroVal_valid h1.zero).1 hz)⟩⟩
  · rintro l v m w o l' v' ⟨hR, hV, r1, r2⟩ ho hact
    obtain ⟨m', w', h4, h5, h6⟩ := h1.left _ _ hR _ _ _ _ _ (good_reach hs r1).2 (good_reach ht r2).2 hV hact
    exact ⟨fun _ => ⟨m', w', h4, h5, h6, .act r1 hact, .act r2 h4⟩, fun hn => absurd (by rw [h.outputs]; exact ho) hn⟩
  · rintro l v m w o m' w' ⟨hR, hV, r1, r2⟩ ho hact
    obtain ⟨l', v', h4, h5, h6⟩ := h1.right _ _ hR _ _ _ _ _ (good_reach hs r1).2 (good_reach ht r2).2 hV hact
    exact ⟨fun _ => ⟨l', v', h4, h5, h6, .act r1 h4, .act r2 hact⟩, fun hn => absurd (by rw [← h.inputs]; exact ho) hn⟩
  · rintro l v m w d ⟨hR, hV, r1, r2⟩ hd
    have hd' := h1.canDelay hR (good_reach hs r1).2 (good_reach ht r2).2 hV hd
    exact ⟨hd', hR, h1.delay _ _ d hV, .delay r1 hd, .delay r2 hd'⟩

theorem Ref.compose {S : TS F} {T : TS G} {U : TS H} (f1 : Ref S T) (f2 : Ref T U) : Ref S U := by
  refine ⟨fun a h => f2.inputs a (f1.inputs a h), fun a h => f1.outputs a (f2.outputs a h), ?_⟩
  rcases f1.states with ⟨s1, s2⟩ | ⟨l, m, s1, s2, h1⟩ <;>
    rcases f2.states with ⟨t1, t2⟩ | ⟨m', n, t1, t2, h2⟩
  · exact .inl ⟨s1, t2⟩
  · rw [s2] at t1; cases t1
  · rw [s2] at t1; cases t1
  · rw [s2] at t1; cases t1
    refine .inr ⟨l, n, s1, t2, fun hz => ?_⟩
    obtain ⟨R, hR, r0⟩ := h1 hz
    obtain ⟨R', hR', r0'⟩ := h2 (hR.inv r0 hz)
    refine ⟨fun l v n x => ∃ m w, R l v m w ∧ R' m w n x, ⟨?_, ?_, ?_⟩, m, zeroVal, r0, r0'⟩
    · rintro l v n x o l' v' ⟨m, w, r, r'⟩ ho ha
      by_cases hoT : o ∈ T.outputs
      · obtain ⟨m', w', ha', r1⟩ := (hR.output r ho ha).1 hoT
        obtain ⟨k1, k2⟩ := hR'.output r' hoT ha'
        refine ⟨fun hoU => ?_, fun hoU => ⟨m', w', r1, k2 hoU⟩⟩
        obtain ⟨n', x', ha'', r2⟩ := k1 hoU
        exact ⟨n', x', ha'', m', w', r1, r2⟩
      · exact ⟨fun hoU => absurd (f2.outputs o hoU) hoT, fun _ => ⟨m, w, (hR.output r ho ha).2 hoT, r'⟩⟩
    · rintro l v n x i n' x' ⟨m, w, r, r'⟩ hi ha
      by_cases hiT : i ∈ T.inputs
      · obtain ⟨m', w', ha', r1⟩ := (hR'.input r' hi ha).1 hiT
        obtain ⟨k1, k2⟩ := hR.input r hiT ha'
        refine ⟨fun hiS => ?_, fun hiS => ⟨m', w', k2 hiS, r1⟩⟩
        obtain ⟨l', v', ha'', r2⟩ := k1 hiS
        exact ⟨l', v', ha'', m', w', r2, r1⟩
      · exact ⟨fun hiS => absurd (f1.inputs i hiS) hiT, fun _ => ⟨m, w, r, (hR'.input r' hi ha).2 hiT⟩⟩
    · rintro l v n x d ⟨m, w, r, r'⟩ hd
      obtain ⟨hd1, r1⟩ := hR.delay r hd
      obtain ⟨hd2, r2⟩ := hR'.delay r' hd1
      exact ⟨hd2, _, _, r1, r2⟩

/-- A system that is refined can wait as long at the start. -/
theorem Ref.waits {S : TS F} {T : TS G} (h : Ref S T) {l : LocTree F} {m : LocTree G} (hl : S.initialLoc = .ok (some l))
    (hm : T.initialLoc = .ok (some m)) {d : ℝ} (hd : TS.CanDelay l zeroVal d) : TS.CanDelay m zeroVal d := by
  rcases h.states with ⟨a, _⟩ | ⟨l', m', a, b, c⟩
  · rw [a] at hl; cases hl
  · rw [a] at hl; cases hl
    rw [b] at hm; cases hm
    have hz : zeroVal ∈ InvSet l := by
      have := hd.2 0 (le_refl 0) hd.1
      rwa [delay_zero] at this
    obtain ⟨R, hR, h0⟩ := c hz
    exact (hR.delay h0 hd).1

/-! ## The same expression in different queries -/

/-- **C54** for expressions: wherever an expression without quotients stands in whatever query, that is, whatever the
numbers its clocks get and the number of clocks of the other systems in the query, its systems cannot be told apart, and
one is consistent or deterministic exactly if the other is. -/
theorem C54_expression_partial {load : String → Res Component} (hload : ∀ n c, load n = .ok c → c.decls.Numbered)
    {e : SysExpr} (he : e.NoQuotient) {k k' m m' : Nat} {q q1 p p1 : Option Nat} {r r' : Recipe}
    (hr : getSystemRecipe load e k q = .ok (r, k', q1)) (hr' : getSystemRecipe load e m p = .ok (r', m', p1))
    (hm : m' < dim G) (hc : ∀ c ∈ r.components, c.Reducible (dim F)) {s : Sys F} {s' : Sys G} (hs : r.Means s)
    (hs' : r'.Means s') : s.Accepted ∧ s'.Accepted ∧ s.ts.Indistinguishable s'.ts (r.SameValues r') ∧
      (s.ts.Consistent ↔ s'.ts.Consistent) ∧ (s.ts.Deterministic ↔ s'.ts.Deterministic) := by
  obtain ⟨rfl, nq, hk, hi, hsh⟩ := recipe_shift hload he hr
  rw [hsh m p] at hr'
  cases hr'
  have red : r.Reduces (dim F) (dim G) [] (fun i => i - k + m) id 0 := by
    refine ⟨⟨fun c hm => (hc c hm).clear.ok, by rw [nq]; simp⟩, fun c hm => ⟨hc c hm, fun _ i hi => by cases hi⟩,
      fun i h _ => ?_, by rw [nq]; simp⟩
    have := hi i h
    omega
  have inj : (r.clockMap [] (fun i => i - k + m) 0).Inj := by
    have key : ∀ i x, r.clockMap [] (fun i => i - k + m) 0 i = some x → k < i ∧ x = i - k + m := by
      intro i x hx
      unfold Recipe.clockMap at hx
      rw [if_neg (by simp)] at hx
      split at hx
      · rename_i h
        cases hx
        exact ⟨(hi i h).1, rfl⟩
      · rw [if_neg (by rw [nq]; simp)] at hx
        cases hx
    intro i j x hx hy
    have := key i x hx
    have := key j x hy
    omega
  obtain ⟨env, i, j, hp, hs⟩ := hs
  obtain ⟨env', i', j', hp', hs'⟩ := hs'
  have ha := Recipe.compile_accepted hp red.ok hs
  have ha' := Recipe.compile_accepted hp' red.reduced_ok hs'
  have hI := red.indistinguishable hp hp' hs hs' (fun h => absurd nq h) fun _ _ _ t _ _ _ _ => inj.coherent t.updates
  exact ⟨ha, ha', hI, hI.consistent ha.good ha'.good, hI.deterministic ha.good ha'.good⟩

end

/-! ## Answers -/

section
variable {Z : Nat → Type} [∀ d, ZoneLib (Z d)]

/-- The query `refinement: e <= e'` is about `s` and `t`: these are the systems put together as the expressions say, with
all `d` clocks the components declare, and the components are of the kind for which answers are exact (C64). -/
def QueryEnv.Asks (X : QueryEnv Z) (load : String → Res Component) (e e' : SysExpr) (d : Nat) (s t : Sys (Z d)) : Prop :=
  ∃ l r q, getRecipes load [e, e'] 0 none = .ok ([l, r], d, q) ∧ X.Comparable l r d q ∧
    (∀ c ∈ l.components ++ r.components, c.Tame (Z d)) ∧ l.Means s ∧ r.Means t

/-- The second system can wait at the start as long as the first one. -/
def Sys.WaitsAsLong {F : Type} [ZoneLib F] (s t : Sys F) : Prop :=
  ∀ l m, s.ts.initialLoc = .ok (some l) → t.ts.initialLoc = .ok (some m) →
    ∀ d, TS.CanDelay l zeroVal d → TS.CanDelay m zeroVal d

/-- The two recipes of a refinement query. -/
theorem getRecipes_two {load : String → Res Component} {e e' : SysExpr} {l r : Recipe} {d : Nat} {q : Option Nat}
    (h : getRecipes load [e, e'] 0 none = .ok ([l, r], d, q)) :
    ∃ k p, getSystemRecipe load e 0 none = .ok (l, k, p) ∧ getSystemRecipe load e' k p = .ok (r, d, q) ∧ k ≤ d := by
  obtain ⟨⟨l0, k1, q1⟩, ha, h⟩ := bind_ok h
  obtain ⟨⟨rs, k2, q2⟩, hb, h⟩ := bind_ok h
  obtain ⟨⟨r0, k3, q3⟩, hb, hb'⟩ := bind_ok hb
  cases hb'
  cases h
  exact ⟨k1, q1, ha, hb, recipe_dim_mono hb⟩

/-- The answer is yes exactly if the first system refines the second. -/
theorem QueryEnv.Asks.exact (hZ : ∀ d, dim (Z d) = d + 1) {X : QueryEnv Z} (hX : X.Fair) {load : String → Res Component}
    (hload : ∀ n c, load n = .ok c → c.decls.Numbered) {e e' : SysExpr} (he : e.NoQuotient) (he' : e'.NoQuotient) {d : Nat}
    {s t : Sys (Z d)} (hA : X.Asks load e e' d s t) (hw : s.WaitsAsLong t) {d' : Nat} {o : Option (RefFailure (Z d'))}
    (ho : ∀ side g, o ≠ some (.precheck side g)) (h : X.run load (.refinement e e') = .ok (.refinement d' o)) :
    o = none ↔ Refines s.ts t.ts := by
  obtain ⟨l, r, q, hr, hc, ht, h1, h2⟩ := hA
  obtain ⟨k, p, ha, hb, _⟩ := getRecipes_two hr
  exact C64_exact_partial hZ X hX load hload e e' l r d q hr hc (Recipe.lined (recipe_shift hload he ha).2.1)
    (Recipe.lined (recipe_shift hload he' hb).2.1) (fun c hm => ht c (List.mem_append_left _ hm))
    (fun c hm => ht c (List.mem_append_right _ hm)) s t h1 h2 hw d' o ho h

/-- When a query is answered and it is not that the determinism or consistency check fails, both systems are
deterministic. -/
theorem QueryEnv.Asks.deterministic (hZ : ∀ d, dim (Z d) = d + 1) {X : QueryEnv Z} (hX : X.Fair)
    {load : String → Res Component} (hload : ∀ n c, load n = .ok c → c.decls.Numbered) {e e' : SysExpr} (he : e.NoQuotient)
    (he' : e'.NoQuotient) {d : Nat} {s t : Sys (Z d)} (hA : X.Asks load e e' d s t) {d' : Nat}
    {o : Option (RefFailure (Z d'))} (ho : ∀ side g, o ≠ some (.precheck side g))
    (h : X.run load (.refinement e e') = .ok (.refinement d' o)) : s.ts.Deterministic ∧ t.ts.Deterministic := by
  obtain ⟨l, r, q, hr, hc, ht, h1, h2⟩ := hA
  obtain ⟨k, p, ha, hb, _⟩ := getRecipes_two hr
  obtain ⟨l', r', d1, ρ, σ, s', t', j, j', o1, a, b, hdis, hs', ht', hck, hA⟩ := X.refinement_form hZ hX hload hr hc h
  cases hA
  rw [← hZ, ← hZ] at a b
  obtain ⟨as, as', als, is, us⟩ := a.behaves (hX.compiled d').2.2.1 h1 hs'
  obtain ⟨at', at'', alt, it, ut⟩ := b.behaves (hX.compiled d').2.2.2 h2 ht'
  obtain ⟨env, _, _, hp, h1⟩ := h1
  obtain ⟨env', _, _, hp', h2⟩ := h2
  have os := a.ordinary (Recipe.lined (recipe_shift hload he ha).2.1) (fun c hm => ht c (List.mem_append_left _ hm)) hp
    (hX.compiled d').2.2.1 h1 hs'
  have ot := b.ordinary (Recipe.lined (recipe_shift hload he' hb).2.1) (fun c hm => ht c (List.mem_append_right _ hm)) hp'
    (hX.compiled d').2.2.2 h2 ht'
  unfold checkRefinement at hck
  obtain ⟨o1, hp1, hck⟩ := bind_ok hck
  cases o1 with
  | some x => cases hck; exact absurd rfl (ho _ _)
  | none =>
  obtain ⟨o2, hp2, hck⟩ := bind_ok hck
  cases o2 with
  | some x => cases hck; exact absurd rfl (ho _ _)
  | none =>
  exact ⟨(is.deterministic as.good as'.good).2 (os.regular (hX.checks d' s').1 hp1).det,
    (it.deterministic at'.good at''.good).2 (ot.regular (hX.checks d' t').2 hp2).det⟩

/-- An expression as it stands in two queries. -/
theorem same_expression {F G : Type} [ZoneLib F] [ZoneLib G] {load : String → Res Component}
    (hload : ∀ n c, load n = .ok c → c.decls.Numbered) {e : SysExpr} (he : e.NoQuotient) {k k' m m' : Nat}
    {q q1 p p1 : Option Nat} {r r' : Recipe}
    (hr : getSystemRecipe load e k q = .ok (r, k', q1)) (hr' : getSystemRecipe load e m p = .ok (r', m', p1))
    (hm : m' < dim G) (hc : ∀ c ∈ r.components, c.Reducible (dim F)) {s : Sys F} {s' : Sys G} (hs : r.Means s)
    (hs' : r'.Means s') : Ref s.ts s'.ts ∧ Ref s'.ts s.ts ∧ s'.inputs = s.inputs ∧ s'.outputs = s.outputs := by
  obtain ⟨a, a', i, _⟩ := C54_expression_partial hload he hr hr' hm hc hs hs'
  exact ⟨.of_indistinguishable a.good a'.good i, .of_indistinguishable a'.good a.good i.symm, i.inputs, i.outputs⟩

/-- **C80** `refinement: A <= A` is answered with yes, for every expression `A` without quotients, unless it is reported
that the determinism or consistency check fails or an action is input and output of `A`. -/
theorem C80_reflexive_partial (hZ : ∀ d, dim (Z d) = d + 1) (X : QueryEnv Z) (hX : X.Fair) (load : String → Res Component)
    (hload : ∀ n c, load n = .ok c → c.decls.Numbered) (e : SysExpr) (he : e.NoQuotient) (d : Nat) (s t : Sys (Z d))
    (hA : X.Asks load e e d s t) (hio : ∀ a ∈ s.inputs, a ∉ s.outputs) (d' : Nat) (o : Option (RefFailure (Z d')))
    (ho : ∀ side g, o ≠ some (.precheck side g)) (h : X.run load (.refinement e e) = .ok (.refinement d' o)) : o = none := by
  obtain ⟨l, r, q, hr, hc, ht, h1, h2⟩ := id hA
  obtain ⟨k, p, ha, hb, _⟩ := getRecipes_two hr
  obtain ⟨f, _, ei, eo⟩ := same_expression hload he ha hb (by rw [hZ]; omega)
    (fun c hm => by rw [hZ]; exact (hc.left c hm).1) h1 h2
  refine (hA.exact hZ hX hload he he (fun l m hl hm d hd => f.waits hl hm hd) ho h).2 (f.refines ?_ ?_)
  · intro a h h'
    exact hio a h (by rw [← eo]; exact h')
  · intro a h h'
    exact hio a (by rw [← ei]; exact h') h

/-- **C80** If `refinement: A <= B` and `refinement: B <= C` are answered with yes, so is `refinement: A <= C`, unless it
is reported that the determinism or consistency check fails, or an output of `A` is an input of `C` (C45). -/
theorem C80_transitive_partial (hZ : ∀ d, dim (Z d) = d + 1) (X : QueryEnv Z) (hX : X.Fair) (load : String → Res Component)
    (hload : ∀ n c, load n = .ok c → c.decls.Numbered) (e1 e2 e3 : SysExpr) (h1 : e1.NoQuotient) (h2 : e2.NoQuotient)
    (h3 : e3.NoQuotient) (d12 d23 d13 : Nat) (s1 s2 : Sys (Z d12)) (t2 t3 : Sys (Z d23)) (u1 u3 : Sys (Z d13))
    (A12 : X.Asks load e1 e2 d12 s1 s2) (A23 : X.Asks load e2 e3 d23 t2 t3) (A13 : X.Asks load e1 e3 d13 u1 u3)
    (hw12 : s1.WaitsAsLong s2) (hw23 : t2.WaitsAsLong t3) (hio : ∀ a ∈ u1.outputs, a ∉ u3.inputs)
    (d d' d'' : Nat) (o : Option (RefFailure (Z d''))) (ho : ∀ side g, o ≠ some (.precheck side g))
    (h12 : X.run load (.refinement e1 e2) = .ok (.refinement d none))
    (h23 : X.run load (.refinement e2 e3) = .ok (.refinement d' none))
    (h13 : X.run load (.refinement e1 e3) = .ok (.refinement d'' o)) : o = none := by
  have R12 := (A12.exact hZ hX hload h1 h2 hw12 (fun _ _ h => by cases h) h12).1 rfl
  have R23 := (A23.exact hZ hX hload h2 h3 hw23 (fun _ _ h => by cases h) h23).1 rfl
  obtain ⟨l, r, q, hr, hc, ht, m1, m2⟩ := A12
  obtain ⟨l', r', q', hr', hc', ht', m2', m3'⟩ := A23
  obtain ⟨l'', r'', q'', hr'', hc'', ht'', m1'', m3''⟩ := id A13
  obtain ⟨k, p, ha, hb, _⟩ := getRecipes_two hr
  obtain ⟨k', p', ha', hb', _⟩ := getRecipes_two hr'
  obtain ⟨k'', p'', ha'', hb'', _⟩ := getRecipes_two hr''
  obtain ⟨_, f1, i1, o1⟩ := same_expression hload h1 ha ha'' (by rw [hZ]; omega)
    (fun c hm => by rw [hZ]; exact (hc.left c hm).1) m1 m1''
  obtain ⟨f2, _, i2, o2⟩ := same_expression hload h2 hb ha' (by rw [hZ]; omega)
    (fun c hm => by rw [hZ]; exact (hc.right c hm).1) m2 m2'
  obtain ⟨f3, _, i3, o3⟩ := same_expression hload h3 hb' hb'' (by rw [hZ]; omega)
    (fun c hm => by rw [hZ]; exact (hc'.right c hm).1) m3' m3''
  have f := f1.compose ((Ref.of_refines R12).compose (f2.compose ((Ref.of_refines R23).compose f3)))
  refine (A13.exact hZ hX hload h1 h3 (fun l m hl hm d hd => f.waits hl hm hd) ho h13).2 (f.refines ?_ hio)
  intro a h h'
  refine R23.alphabets.inOut a ?_ (show a ∈ t3.outputs by rw [← o3]; exact h')
  show a ∈ t2.inputs
  rw [i2]
  exact R12.alphabets.inputs a (show a ∈ s1.inputs by rw [← i1]; exact h)

/-! ## Conjunctions -/

/-- The systems of the two operands of a conjunction in a query. -/
theorem conjunction_parts {F : Type} [ZoneLib F] {load : String → Res Component}
    (hload : ∀ n c, load n = .ok c → c.decls.Numbered) {e1 e2 : SysExpr} (he1 : e1.NoQuotient) (he2 : e2.NoQuotient)
    {k k' : Nat} {q q' : Option Nat} {r : Recipe} (hr : getSystemRecipe load (.conjunction e1 e2) k q = .ok (r, k', q'))
    (hc : ∀ c ∈ r.components, c.Reducible (dim F)) {s x y : Sys F} (hs : r.Means s)
    (hxy : Sys.newConjunctionUnchecked x y = .ok s) :
    ∃ r1 r2 k1 q1, getSystemRecipe load e1 k q = .ok (r1, k1, q1) ∧ getSystemRecipe load e2 k1 q1 = .ok (r2, k', q') ∧
      r1.Means x ∧ r2.Means y ∧ x.Accepted ∧ y.Accepted ∧ x.DisjointClocks y ∧ (∀ c ∈ r1.components, c.Reducible (dim F)) ∧
      ∀ c ∈ r2.components, c.Reducible (dim F) := by
  obtain ⟨⟨r1, k1, q1⟩, h1, hr⟩ := bind_ok hr
  obtain ⟨⟨r2, k2, q2⟩, h2, hr⟩ := bind_ok hr
  cases hr
  obtain ⟨_, n1, _, c1, _⟩ := recipe_shift hload he1 h1
  obtain ⟨_, n2, _, c2, _⟩ := recipe_shift hload he2 h2
  have hc1 : ∀ c ∈ r1.components, c.Reducible (dim F) := fun c hm => hc c (List.mem_append_left _ hm)
  have hc2 : ∀ c ∈ r2.components, c.Reducible (dim F) := fun c hm => hc c (List.mem_append_right _ hm)
  obtain ⟨env, i, j, hp, hs⟩ := hs
  obtain ⟨⟨x', i1⟩, y1, hs⟩ := bind_ok hs
  obtain ⟨⟨y', i2⟩, y2, hs⟩ := bind_ok hs
  obtain ⟨z, y3, hs⟩ := bind_ok hs
  cases hs
  have y3 := newConjunction_unchecked y3
  obtain ⟨_, _, e⟩ := Sys.newConjunction_eq y3
  obtain ⟨_, _, e'⟩ := Sys.newConjunction_eq hxy
  rw [e] at e'
  cases e'
  refine ⟨r1, r2, k1, q1, h1, h2, ⟨env.sub false, _, _, hp, y1⟩, ⟨env.sub true, _, _, hp, y2⟩, ?_, ?_, ?_, hc1, hc2⟩
  · exact Recipe.compile_accepted (env := env.sub false) hp ⟨fun c hm => (hc1 c hm).clear.ok, by rw [n1]; simp⟩ y1
  · exact Recipe.compile_accepted (env := env.sub true) hp ⟨fun c hm => (hc2 c hm).clear.ok, by rw [n2]; simp⟩ y2
  · exact disjoint_of_ranges n1 n2 (k := k1) (fun i hi => (c1 i hi).2) (fun i hi => (c2 i hi).1) y1 y2

/-- **C80** `refinement: A && B <= A` is answered with yes, if `A` and `B` have the same actions and `B` accepts all
inputs, unless it is reported that the determinism or consistency check fails. -/
theorem C80_conjunction_left_partial (hZ : ∀ d, dim (Z d) = d + 1) (X : QueryEnv Z) (hX : X.Fair)
    (load : String → Res Component) (hload : ∀ n c, load n = .ok c → c.decls.Numbered) (e1 e2 : SysExpr)
    (h1 : e1.NoQuotient) (h2 : e2.NoQuotient) (d : Nat) (s t x y : Sys (Z d))
    (hA : X.Asks load (.conjunction e1 e2) e1 d s t) (hs : Sys.newConjunctionUnchecked x y = .ok s)
    (hi : ∀ a, a ∈ x.inputs ↔ a ∈ y.inputs) (ho' : ∀ a, a ∈ x.outputs ↔ a ∈ y.outputs)
    (hinit : (∃ a, x.initialLoc = .ok (some a)) ↔ ∃ b, y.initialLoc = .ok (some b)) (hen : y.ts.InputEnabled)
    (d' : Nat) (o : Option (RefFailure (Z d'))) (ho : ∀ side g, o ≠ some (.precheck side g))
    (h : X.run load (.refinement (.conjunction e1 e2) e1) = .ok (.refinement d' o)) : o = none := by
  obtain ⟨l, r, q, hr, hc, ht, m1, m2⟩ := id hA
  obtain ⟨k, p, ha, hb, _⟩ := getRecipes_two hr
  obtain ⟨r1, r2, k1, q1, p1, p2, mx, my, ax, ay, hdis, hc1, hc2⟩ := conjunction_parts hload h1 h2 ha
    (fun c hm => by rw [hZ]; exact (hc.left c hm).1) m1 hs
  have R := (C45_conjunction_lower_partial x y s ax ay hs hdis hi ho' hinit).1 hen
  obtain ⟨f, _, ei, eo⟩ := same_expression hload h1 p1 hb (by rw [hZ]; omega) hc1 mx m2
  have f := (Ref.of_refines R).compose f
  refine (hA.exact hZ hX hload (e := .conjunction e1 e2) ⟨h1, h2⟩ h1 (fun l m hl hm d hd => f.waits hl hm hd) ho h).2 (f.refines ?_ ?_)
  · intro a h h'
    exact R.alphabets.inOut a h (show a ∈ x.outputs by rw [← eo]; exact h')
  · intro a h h'
    exact R.alphabets.outIn a h (show a ∈ x.inputs by rw [← ei]; exact h')

/-- **C80** and so is `refinement: A && B <= B`, if `A` accepts all inputs. -/
theorem C80_conjunction_right_partial (hZ : ∀ d, dim (Z d) = d + 1) (X : QueryEnv Z) (hX : X.Fair)
    (load : String → Res Component) (hload : ∀ n c, load n = .ok c → c.decls.Numbered) (e1 e2 : SysExpr)
    (h1 : e1.NoQuotient) (h2 : e2.NoQuotient) (d : Nat) (s t x y : Sys (Z d))
    (hA : X.Asks load (.conjunction e1 e2) e2 d s t) (hs : Sys.newConjunctionUnchecked x y = .ok s)
    (hi : ∀ a, a ∈ x.inputs ↔ a ∈ y.inputs) (ho' : ∀ a, a ∈ x.outputs ↔ a ∈ y.outputs)
    (hinit : (∃ a, x.initialLoc = .ok (some a)) ↔ ∃ b, y.initialLoc = .ok (some b)) (hen : x.ts.InputEnabled)
    (d' : Nat) (o : Option (RefFailure (Z d'))) (ho : ∀ side g, o ≠ some (.precheck side g))
    (h : X.run load (.refinement (.conjunction e1 e2) e2) = .ok (.refinement d' o)) : o = none := by
  obtain ⟨l, r, q, hr, hc, ht, m1, m2⟩ := id hA
  obtain ⟨k, p, ha, hb, _⟩ := getRecipes_two hr
  obtain ⟨r1, r2, k1, q1, p1, p2, mx, my, ax, ay, hdis, hc1, hc2⟩ := conjunction_parts hload h1 h2 ha
    (fun c hm => by rw [hZ]; exact (hc.left c hm).1) m1 hs
  have R := (C45_conjunction_lower_partial x y s ax ay hs hdis hi ho' hinit).2 hen
  obtain ⟨f, _, ei, eo⟩ := same_expression hload h2 p2 hb (by rw [hZ]; omega) hc2 my m2
  have f := (Ref.of_refines R).compose f
  refine (hA.exact hZ hX hload (e := .conjunction e1 e2) ⟨h1, h2⟩ h2 (fun l m hl hm d hd => f.waits hl hm hd) ho h).2 (f.refines ?_ ?_)
  · intro a h h'
    exact R.alphabets.inOut a h (show a ∈ y.outputs by rw [← eo]; exact h')
  · intro a h h'
    exact R.alphabets.outIn a h (show a ∈ y.inputs by rw [← ei]; exact h')

/-- **C80** If `refinement: C <= A` and `refinement: C <= B` are answered with yes, so is `refinement: C <= A && B`, if `A`
and `B` have the same outputs, unless it is reported that the determinism or consistency check
fails. -/
theorem C80_conjunction_greatest_partial (hZ : ∀ d, dim (Z d) = d + 1) (X : QueryEnv Z) (hX : X.Fair)
    (load : String → Res Component) (hload : ∀ n c, load n = .ok c → c.decls.Numbered) (e e1 e2 : SysExpr)
    (h0 : e.NoQuotient) (h1 : e1.NoQuotient) (h2 : e2.NoQuotient) (d1 d2 d : Nat) (u1 t1 : Sys (Z d1)) (u2 t2 : Sys (Z d2))
    (u s x y : Sys (Z d)) (A1 : X.Asks load e e1 d1 u1 t1) (A2 : X.Asks load e e2 d2 u2 t2)
    (hA : X.Asks load e (.conjunction e1 e2) d u s) (hs : Sys.newConjunctionUnchecked x y = .ok s)
    (ho' : ∀ a, a ∈ x.outputs ↔ a ∈ y.outputs) (hw1 : u1.WaitsAsLong t1) (hw2 : u2.WaitsAsLong t2)
    (b1 b2 b : Nat) (o : Option (RefFailure (Z b))) (ho : ∀ side g, o ≠ some (.precheck side g))
    (k1 : X.run load (.refinement e e1) = .ok (.refinement b1 none))
    (k2 : X.run load (.refinement e e2) = .ok (.refinement b2 none))
    (h : X.run load (.refinement e (.conjunction e1 e2)) = .ok (.refinement b o)) : o = none := by
  have R1 := (A1.exact hZ hX hload h0 h1 hw1 (fun _ _ h => by cases h) k1).1 rfl
  have R2 := (A2.exact hZ hX hload h0 h2 hw2 (fun _ _ h => by cases h) k2).1 rfl
  obtain ⟨l1, r1, q1, hr1, hc1, _, m1, m1'⟩ := A1
  obtain ⟨l2, r2, q2, hr2, hc2, _, m2, m2'⟩ := A2
  obtain ⟨l, r, q, hr, hc, ht, m, m'⟩ := id hA
  obtain ⟨_, _, ha1, hb1, _⟩ := getRecipes_two hr1
  obtain ⟨_, _, ha2, hb2, _⟩ := getRecipes_two hr2
  obtain ⟨k, p, ha, hb, hk⟩ := getRecipes_two hr
  obtain ⟨r1', r2', k1', q1', p1, p2, mx, my, ax, ay, hdis, hcx, hcy⟩ := conjunction_parts hload h1 h2 hb
    (fun c hm => by rw [hZ]; exact (hc.right c hm).1) m' hs
  have hk' := recipe_dim_mono p2
  obtain ⟨au1, au, iu1, _⟩ := C54_expression_partial (F := Z d1) (G := Z d) hload h0 ha1 ha (by rw [hZ]; omega)
    (fun c hm => by rw [hZ]; exact (hc1.left c hm).1) m1 m
  obtain ⟨au2, _, iu2, _⟩ := C54_expression_partial (F := Z d2) (G := Z d) hload h0 ha2 ha (by rw [hZ]; omega)
    (fun c hm => by rw [hZ]; exact (hc2.left c hm).1) m2 m
  obtain ⟨at1, _, it1, _⟩ := C54_expression_partial (F := Z d1) (G := Z d) hload h1 hb1 p1 (by rw [hZ]; omega)
    (fun c hm => by rw [hZ]; exact (hc1.right c hm).1) m1' mx
  obtain ⟨at2, _, it2, _⟩ := C54_expression_partial (F := Z d2) (G := Z d) hload h2 hb2 p2 (by rw [hZ]; omega)
    (fun c hm => by rw [hZ]; exact (hc2.right c hm).1) m2' my
  have hdet := (hA.deterministic hZ hX hload h0 (e' := .conjunction e1 e2) ⟨h1, h2⟩ ho h).1
  have R := C45_conjunction_greatest u x y s au ax ay hs hdis ho' hdet
    ((iu1.refines au1.good au.good at1.good ax.good it1).1 R1) ((iu2.refines au2.good au.good at2.good ay.good it2).1 R2)
  exact (hA.exact hZ hX hload h0 (e' := .conjunction e1 e2) ⟨h1, h2⟩ (fun l m hl hm d hd => (Ref.of_refines R).waits hl hm hd) ho h).2 R

/-! ## Compositions -/

/-- The systems of the two operands of a composition in a query. -/
theorem composition_parts {F : Type} [ZoneLib F] {load : String → Res Component}
    (hload : ∀ n c, load n = .ok c → c.decls.Numbered) {e1 e2 : SysExpr} (he1 : e1.NoQuotient) (he2 : e2.NoQuotient)
    {k k' : Nat} {q q' : Option Nat} {r : Recipe} (hr : getSystemRecipe load (.composition e1 e2) k q = .ok (r, k', q'))
    (hc : ∀ c ∈ r.components, c.Reducible (dim F)) {s x y : Sys F} (hs : r.Means s)
    (hxy : Sys.newComposition x y = .ok s) :
    ∃ r1 r2 k1 q1, r = .composition r1 r2 ∧ getSystemRecipe load e1 k q = .ok (r1, k1, q1) ∧
      getSystemRecipe load e2 k1 q1 = .ok (r2, k', q') ∧
      r1.Means x ∧ r2.Means y ∧ x.Accepted ∧ y.Accepted ∧ x.DisjointClocks y ∧ (∀ c ∈ r1.components, c.Reducible (dim F)) ∧
      (∀ c ∈ r2.components, c.Reducible (dim F)) ∧ TwoOperands r1 r2 k (k1 - k) (k' - k1) ∧ k ≤ k1 ∧ k1 ≤ k' := by
  obtain ⟨⟨r1, k1, q1⟩, h1, hr⟩ := bind_ok hr
  obtain ⟨⟨r2, k2, q2⟩, h2, hr⟩ := bind_ok hr
  cases hr
  obtain ⟨_, n1, a1, c1, _⟩ := recipe_shift hload he1 h1
  obtain ⟨_, n2, a2, c2, _⟩ := recipe_shift hload he2 h2
  have hc1 : ∀ c ∈ r1.components, c.Reducible (dim F) := fun c hm => hc c (List.mem_append_left _ hm)
  have hc2 : ∀ c ∈ r2.components, c.Reducible (dim F) := fun c hm => hc c (List.mem_append_right _ hm)
  obtain ⟨env, i, j, hp, hs⟩ := hs
  obtain ⟨⟨x', i1⟩, y1, hs⟩ := bind_ok hs
  obtain ⟨⟨y', i2⟩, y2, hs⟩ := bind_ok hs
  obtain ⟨z, y3, hs⟩ := bind_ok hs
  cases hs
  obtain ⟨_, e⟩ := Sys.newComposition_eq y3
  obtain ⟨_, e'⟩ := Sys.newComposition_eq hxy
  rw [e] at e'
  cases e'
  refine ⟨r1, r2, k1, q1, rfl, h1, h2, ⟨env.sub false, _, _, hp, y1⟩, ⟨env.sub true, _, _, hp, y2⟩, ?_, ?_, ?_, hc1, hc2,
    ⟨n1, n2, fun i hi => ?_, fun i hi => ?_⟩, a1, a2⟩
  · exact Recipe.compile_accepted (env := env.sub false) hp ⟨fun c hm => (hc1 c hm).clear.ok, by rw [n1]; simp⟩ y1
  · exact Recipe.compile_accepted (env := env.sub true) hp ⟨fun c hm => (hc2 c hm).clear.ok, by rw [n2]; simp⟩ y2
  · exact disjoint_of_ranges n1 n2 (k := k1) (fun i hi => (c1 i hi).2) (fun i hi => (c2 i hi).1) y1 y2
  · have := c1 i hi; omega
  · have := c2 i hi; omega

/-- The second operand of a composition may use other clocks, before those of the first. -/
theorem other_clocks {F : Type} [ZoneLib F] {r1 r2 : Recipe} {k n m a : Nat} (T : TwoOperands r1 r2 k n m) (ha : a + m ≤ k)
    (hd : k + n + m < dim F) (hc : ∀ c ∈ r1.components ++ r2.components, c.Reducible (dim F)) {x y y' s s' : Sys F}
    (hx : r1.Means x) (hy : r2.Means y) (hy' : (r2.reshape (Component.reduced [] fun i => i - (k + n) + a) id).Means y')
    (hs : Sys.newComposition x y = .ok s) (hs' : Sys.newComposition x y' = .ok s') :
    ∃ V, s.ts.Indistinguishable s'.ts V := by
  let f : Nat → Nat := fun i => if i ≤ k + n then i else i - (k + n) + a
  have e1 : r1.reshape (Component.reduced [] f) id = r1 := by
    rw [Recipe.reshape_clocks (g := id) fun i hi => ?_, Component.reduced_nil, Recipe.reshape_id]
    have := T.left i hi
    exact if_pos (by omega)
  have e2 : r2.reshape (Component.reduced [] fun i => i - (k + n) + a) id = r2.reshape (Component.reduced [] f) id :=
    Recipe.reshape_clocks fun i hi => by
      have := T.right i hi
      exact (if_neg (by omega)).symm
  rw [e2] at hy'
  obtain ⟨R, R1, R2⟩ := T.reduces hc (f := f) (fun i h1 h2 => by
    by_cases hi : i ≤ k + n
    · rw [show f i = i from if_pos hi]; omega
    · rw [show f i = i - (k + n) + a from if_neg hi]; omega)
  have A := (⟨R.ok, fun c hm => ⟨hc c hm, clockMap_on hm, fun _ i hi => by cases hi⟩, fun q hq => R.quot hq, fun hne =>
    absurd (by unfold Recipe.quotientClocks; rw [T.noQuot1, T.noQuot2]; rfl) hne⟩ :
      (Recipe.composition r1 r2).Fit (dim F) [] f id _)
  obtain ⟨A1, A2⟩ := Recipe.Fit.split (l := r1) (r := r2) (x := .composition r1 r2) rfl
    (fun c hc => List.mem_append.2 hc) A
  obtain ⟨env, _, _, hp, hx⟩ := hx
  obtain ⟨env2, _, _, hp2, hy⟩ := hy
  obtain ⟨env3, _, _, hp3, hy'⟩ := hy'
  have al1 := Recipe.compile_alike R.fits hp hp A1 hx (by rw [e1]; exact hx)
  have al2 := Recipe.compile_alike R.fits hp2 hp3 A2 hy hy'
  have inj : ((Recipe.composition r1 r2).clockMap [] f 0).Inj := by
    have key : ∀ i x, (Recipe.composition r1 r2).clockMap [] f 0 i = some x → (k < i ∧ i ≤ k + n + m) ∧ x = f i := by
      intro i x hx
      unfold Recipe.clockMap at hx
      rw [if_neg (by simp)] at hx
      split at hx
      · rename_i hi
        cases hx
        refine ⟨?_, rfl⟩
        have hi : i ∈ r1.clockIndices ++ r2.clockIndices := by
          unfold Recipe.clockIndices at hi ⊢
          rwa [← List.flatMap_append]
        rcases List.mem_append.1 hi with hi | hi
        · have := T.left i hi; omega
        · have := T.right i hi; omega
      · rw [if_neg (by unfold Recipe.quotientClocks; rw [T.noQuot1, T.noQuot2]; simp)] at hx
        cases hx
    intro i j x hi hj
    obtain ⟨a, b⟩ := key i x hi
    obtain ⟨c, d⟩ := key j x hj
    rw [b] at d
    have d : (if i ≤ k + n then i else i - (k + n) + _) = (if j ≤ k + n then j else j - (k + n) + _) := d
    split at d <;> split at d <;> omega
  have ac1 := Recipe.compile_accepted hp R1.ok hx
  have ac2 := Recipe.compile_accepted hp2 R2.ok hy
  exact ⟨_, (al1.composition al2 hs hs').indistinguishable (Sys.Accepted.composition ac1 ac2 hs) R.fits
    fun _ _ _ t _ _ _ _ => inj.coherent t.updates⟩

/-- **C80** If `refinement: A <= B` is answered with yes, so is `refinement: A || C <= B || C`, if `B`
accepts all inputs, `C` knows none of the outputs `A` has in addition to those of `B`, and no action is input and output of
`B` or of `C`; unless it is reported that the determinism or consistency check fails. -/
theorem C80_composition_monotone_partial (hZ : ∀ d, dim (Z d) = d + 1) (X : QueryEnv Z) (hX : X.Fair)
    (load : String → Res Component) (hload : ∀ n c, load n = .ok c → c.decls.Numbered) (e1 e2 e3 : SysExpr)
    (h1 : e1.NoQuotient) (h2 : e2.NoQuotient) (h3 : e3.NoQuotient) (d1 d : Nat) (s1 t1 : Sys (Z d1))
    (s t x u y u' : Sys (Z d)) (A1 : X.Asks load e1 e2 d1 s1 t1)
    (hA : X.Asks load (.composition e1 e3) (.composition e2 e3) d s t) (hs : Sys.newComposition x u = .ok s)
    (ht : Sys.newComposition y u' = .ok t) (hw : s1.WaitsAsLong t1) (hen : y.ts.InputEnabled)
    (hextra : ∀ a ∈ x.outputs, a ∉ y.outputs → u.hasAction a = false) (hioy : ∀ a ∈ y.inputs, a ∉ y.outputs)
    (hiou : ∀ a ∈ u.inputs, a ∉ u.outputs) (b1 b : Nat) (o : Option (RefFailure (Z b)))
    (ho : ∀ side g, o ≠ some (.precheck side g)) (k1 : X.run load (.refinement e1 e2) = .ok (.refinement b1 none))
    (h : X.run load (.refinement (.composition e1 e3) (.composition e2 e3)) = .ok (.refinement b o)) : o = none := by
  have R1 := (A1.exact hZ hX hload h1 h2 hw (fun _ _ h => by cases h) k1).1 rfl
  have D1 := (A1.deterministic hZ hX hload h1 h2 (fun _ _ h => by cases h) k1).1
  obtain ⟨l1, r1, q1, hr1, hc1, _, m1, m1'⟩ := A1
  obtain ⟨l, r, q, hr, hc, _, m, m'⟩ := id hA
  obtain ⟨_, _, ha1, hb1, _⟩ := getRecipes_two hr1
  obtain ⟨k, p, ha, hb, hk⟩ := getRecipes_two hr
  obtain ⟨rx, ru, kx, qx, rfl, p1, p2, mx, mu, ax, au, hdis, hcx, hcu, T1, l1, l2⟩ := composition_parts hload h1 h3 ha
    (fun c hm => by rw [hZ]; exact (hc.left c hm).1) m hs
  obtain ⟨ry, ru', ky, qy, rfl, p3, p4, my, mu', ay, au', hdis', hcy, hcu', T2, l3, l4⟩ := composition_parts hload h2 h3 hb
    (fun c hm => by rw [hZ]; exact (hc.right c hm).1) m' ht
  obtain ⟨as1, _, is1, _, hdet⟩ := C54_expression_partial (F := Z d1) (G := Z d) hload h1 ha1 p1 (by rw [hZ]; omega)
    (fun c hm => by rw [hZ]; exact (hc1.left c hm).1) m1 mx
  obtain ⟨at1, _, it1, _⟩ := C54_expression_partial (F := Z d1) (G := Z d) hload h2 hb1 p3 (by rw [hZ]; omega)
    (fun c hm => by rw [hZ]; exact (hc1.right c hm).1) m1' my
  obtain ⟨_, _, iu, ou⟩ := same_expression (F := Z d) (G := Z d) hload h3 p4 p2 (by rw [hZ]; omega) hcu' mu' mu
  have Rxy := (is1.refines as1.good ax.good at1.good ay.good it1).1 R1
  -- `B || C` with the clocks of the `C` on the left
  obtain ⟨w, hw'⟩ : ∃ w, Sys.newComposition y u = .ok w := by
    obtain ⟨hd, _⟩ := Sys.newComposition_eq ht
    unfold Sys.newComposition
    rw [if_neg (by
      rw [Bool.not_eq_true, Bool.not_eq_false', setDisjoint_iff, ou]
      exact hd)]
    exact ⟨_, rfl⟩
  obtain ⟨_, nu, _, cu, _⟩ := recipe_shift hload h3 p2
  obtain ⟨_, ny, _, cy, _⟩ := recipe_shift hload h2 p3
  have hyu : y.DisjointClocks u := by
    obtain ⟨_, _, _, _, my⟩ := my
    obtain ⟨_, _, _, _, mu⟩ := mu
    have hd := disjoint_of_ranges nu ny (k := k) (fun i hi => (cu i hi).2) (fun i hi => (cy i hi).1) mu my
    exact fun i hi hc => hd i hc hi
  have R := C47_composition_monotone x y u s w ax ay au hs hw' hdis hyu hioy hiou hextra (hdet.1 D1) hen Rxy
  obtain ⟨_, _, _, _, hsh⟩ := recipe_shift hload h3 p4
  rw [hsh kx qx] at p2
  cases p2
  obtain ⟨V, hV⟩ := other_clocks (a := kx) T2 (by omega) (by rw [hZ]; omega) (fun c hm => by
    rcases List.mem_append.1 hm with hm | hm
    · exact hcy c hm
    · exact hcu' c hm) my mu' (by rw [Nat.add_sub_cancel' l3]; exact mu) ht hw'
  have gw := (Sys.Accepted.composition ay au hw').good
  have gt := (Sys.Accepted.composition ay au' ht).good
  have f := (Ref.of_refines R).compose (Ref.of_indistinguishable gw gt hV.symm)
  refine (hA.exact hZ hX hload (e := .composition e1 e3) (e' := .composition e2 e3) ⟨h1, h3⟩ ⟨h2, h3⟩
    (fun l m hl hm d hd => f.waits hl hm hd) ho h).2 (f.refines ?_ ?_)
  · intro a h h'
    exact R.alphabets.inOut a h (by rw [hV.outputs]; exact h')
  · intro a h h'
    exact R.alphabets.outIn a h (by rw [hV.inputs]; exact h')

end

/-! ## Concrete cases -/

/-- Says one thing at any time -/
def exSay80 (n a : String) : Component := ⟨n, ⟨[], []⟩, [⟨"L0", none, .initial, "NORMAL"⟩],
  [⟨"e", "L0", "L0", .output, none, none, a⟩]⟩

def load80 : String → Res Component := fun n =>
  if n = "A" then .ok (exQuick79 1) else if n = "P" then .ok (exFree79 "P" "out" 1)
  else if n = "O" then .ok (exSay80 "O" "out") else if n = "N" then .ok (exSay80 "N" "tick") else .error (.err "unknown")

theorem load80_numbered (n : String) (c : Component) (h : load80 n = .ok c) : c.decls.Numbered := by
  unfold load80 at h
  split at h
  · cases h; exact .refl _
  · split at h
    · cases h; exact .refl _
    · split at h
      · cases h; exact .refl _
      · split at h
        · cases h; exact .refl _
        · cases h

/-- Conjunctions are checked for all actions. -/
def queries80 : QueryEnv FedD :=
  { plainQueries false with
    compiled := fun d => { envK (FedD d) with checks := fun _ => ⟨fun _ => ["out"], fun _ => [], fun _ => ["out"]⟩ }
    compiled' := fun d => { envK (FedD d) with checks := fun _ => ⟨fun _ => ["out"], fun _ => [], fun _ => ["out"]⟩ } }

theorem queries80_fair : queries80.Fair := by
  have h := plainQueries_fair (Z := FedD) false
  exact ⟨h.compiled, h.acts, h.checks, h.outs, h.ins⟩

theorem exQuick80_reducible {i N : Nat} (hi : i = 1 ∨ i = 2) (hok : (exQuick79 i).okB N = true) :
    (exQuick79 i).Reducible N ∧ (exQuick79 i).UpdatesAgree := by
  obtain ⟨⟨⟨_, a, b, c, d, e⟩, f, g⟩, h⟩ := exQuick79_reducible hi
  exact ⟨⟨⟨Component.ok_of_okB hok, a, b, c, d, e⟩, f, g⟩, h⟩

theorem exFree80_reducible {n a : String} {i N : Nat} (hok3 : (exFree79 n a i).okB 3 = true)
    (hok : (exFree79 n a i).okB N = true) : (exFree79 n a i).Reducible N ∧ (exFree79 n a i).UpdatesAgree := by
  obtain ⟨⟨⟨_, a, b, c, d, e⟩, f, g⟩, h⟩ := exFree79_reducible hok3
  exact ⟨⟨⟨Component.ok_of_okB hok, a, b, c, d, e⟩, f, g⟩, h⟩

theorem exSay80_reducible {n a : String} {N : Nat} (hok : (exSay80 n a).okB N = true) :
    (exSay80 n a).Reducible N ∧ (exSay80 n a).UpdatesAgree := by
  have hinv : ∀ l ∈ (exSay80 n a).locations, l.invariant = none := fun l hl => by rw [List.mem_singleton.1 hl]
  have hg : ∀ e ∈ (exSay80 n a).edges, e.guard = none ∧ e.update = none := fun e he => by
    rw [List.mem_singleton.1 he]; exact ⟨rfl, rfl⟩
  refine ⟨⟨⟨Component.ok_of_okB hok, fun e he g h => ?_, fun l hl g h => ?_, List.nodup_singleton _, ?_,
    List.nodup_nil⟩, ⟨fun e he g h => ?_, fun l hl g h => ?_⟩, List.nodup_nil⟩, fun e he us h => ?_⟩
  · rw [(hg e he).1] at h; cases h
  · rw [hinv l hl] at h; cases h
  · intro l hl l' hl' _ _
    rw [List.mem_singleton.1 hl, List.mem_singleton.1 hl']
  · rw [(hg e he).1] at h; cases h
  · rw [hinv l hl] at h; cases h
  · rw [(hg e he).2] at h; cases h

/-- The components, with the numbers their clocks get in queries about one clock and about two clocks -/
def comps80 : Nat → List Component
  | 1 => [exQuick79 1, exFree79 "P" "out" 1, exSay80 "O" "out", exSay80 "N" "tick"]
  | 2 => [exQuick79 1, exQuick79 2, exFree79 "P" "out" 2, exSay80 "O" "out", exSay80 "N" "tick"]
  | _ => []

theorem tame80 {d : Nat} {c : Component} (h1 : c.plainB = true) (h2 : c.okB (dim (FedD d)) = true) {x : CompComp (FedD d)}
    (h3 : CompComp.compile (F := FedD d) id c 0 = .ok x) (h4 : x.pastB = true) (h5 : x.openB = true) : c.Tame (FedD d) :=
  ⟨Component.plain_of_plainB h1, id, 0, x, fun _ => .refl _, h3, CompComp.past_of_pastB h4,
    CompComp.open_of_openB (Sys.Accepted.comp (Component.ok_of_okB h2) (fun _ => .refl _) h3).good h5⟩

theorem comps80_ok : (∀ c ∈ comps80 1, (c.Reducible 2 ∧ c.UpdatesAgree) ∧ c.Tame (FedD 1)) ∧
    ∀ c ∈ comps80 2, (c.Reducible 3 ∧ c.UpdatesAgree) ∧ c.Tame (FedD 2) := by
  constructor
  · intro c hc
    simp only [comps80, List.mem_cons, List.not_mem_nil, or_false] at hc
    rcases hc with rfl | rfl | rfl | rfl
    · exact ⟨exQuick80_reducible (.inl rfl) (by decide), tame80 (by decide) (by decide) (getOk_eq (by decide +kernel))
        (by decide +kernel) (by decide +kernel)⟩
    · exact ⟨exFree80_reducible (by decide) (by decide), tame80 (by decide) (by decide) (getOk_eq (by decide +kernel))
        (by decide +kernel) (by decide +kernel)⟩
    · exact ⟨exSay80_reducible (by decide), tame80 (by decide) (by decide) (getOk_eq (by decide +kernel))
        (by decide +kernel) (by decide +kernel)⟩
    · exact ⟨exSay80_reducible (by decide), tame80 (by decide) (by decide) (getOk_eq (by decide +kernel))
        (by decide +kernel) (by decide +kernel)⟩
  · intro c hc
    simp only [comps80, List.mem_cons, List.not_mem_nil, or_false] at hc
    rcases hc with rfl | rfl | rfl | rfl | rfl
    · exact ⟨exQuick80_reducible (.inl rfl) (by decide), tame80 (by decide) (by decide) (getOk_eq (by decide +kernel))
        (by decide +kernel) (by decide +kernel)⟩
    · exact ⟨exQuick80_reducible (.inr rfl) (by decide), tame80 (by decide) (by decide) (getOk_eq (by decide +kernel))
        (by decide +kernel) (by decide +kernel)⟩
    · exact ⟨exFree80_reducible (by decide) (by decide), tame80 (by decide) (by decide) (getOk_eq (by decide +kernel))
        (by decide +kernel) (by decide +kernel)⟩
    · exact ⟨exSay80_reducible (by decide), tame80 (by decide) (by decide) (getOk_eq (by decide +kernel))
        (by decide +kernel) (by decide +kernel)⟩
    · exact ⟨exSay80_reducible (by decide), tame80 (by decide) (by decide) (getOk_eq (by decide +kernel))
        (by decide +kernel) (by decide +kernel)⟩

theorem comps80_all {d : Nat} {c : Component} (h : c ∈ comps80 d) : (c.Reducible (d + 1) ∧ c.UpdatesAgree) ∧ c.Tame (FedD d) := by
  match d, h with
  | 1, h => exact comps80_ok.1 c h
  | 2, h => exact comps80_ok.2 c h

theorem asks80 {e e' : SysExpr} {l r : Recipe} {d : Nat} {s t : Sys (FedD d)} (hd : d ≤ 2) (he : l.quotientClocks = [])
    (hr : getRecipes load80 [e, e'] 0 none = .ok ([l, r], d, none)) (hc : l.components ++ r.components ⊆ comps80 d)
    (hs : l.Means s) (ht : r.Means t) : queries80.Asks load80 e e' d s t := by
  refine ⟨l, r, none, hr, ⟨by omega, ?_, ?_, .inl he, (fun h => by cases h), (fun h => by cases h), fun h => by cases h⟩, ?_,
    hs, ht⟩
  · exact fun c hm => (comps80_all (hc (List.mem_append_left _ hm))).1
  · exact fun c hm => (comps80_all (hc (List.mem_append_right _ hm))).1
  · exact fun c hm => (comps80_all (hc hm)).2

theorem waits80 {F : Type} [ZoneLib F] {s t : Sys F}
    (h : (match t.initialLoc with | .ok (some m) => m.inv.isNone | _ => false) = true) : s.WaitsAsLong t := by
  intro l m _ hm d hd
  rw [show t.initialLoc = .ok (some m) from hm] at h
  have hn : m.inv.isNone = true := h
  exact ⟨hd.1, fun e _ _ i hi => by rw [hi] at hn; cases hn⟩

def env80 (d : Nat) : CompileEnv (FedD d) :=
  { envK (FedD d) with checks := fun _ => ⟨fun _ => ["out"], fun _ => [], fun _ => ["out"]⟩ }

theorem means80 {d : Nat} {r : Recipe} {x : Sys (FedD d) × Nat} (h : r.compile (env80 d) 0 = .ok x) : r.Means x.1 :=
  ⟨env80 d, 0, x.2, envK_perm, h⟩

/-- Non-vacuity: `A <= P`, `P <= O` and `A <= O` are answered with yes, so is `A <= A`. -/
example : queries80.run load80 (.refinement (.component "A" none) (.component "O" none)) = .ok (.refinement 1 none) ∧
    queries80.run load80 (.refinement (.component "A" none) (.component "A" none)) = .ok (.refinement 2 none) := by
  have h12 := refinementAnswer_yes (d := 2) (x := queries80.run load80 (.refinement (.component "A" none) (.component "P" none)))
    (by decide +kernel)
  have h23 := refinementAnswer_yes (d := 1) (x := queries80.run load80 (.refinement (.component "P" none) (.component "O" none)))
    (by decide +kernel)
  have h13 := refinementAnswer_yes (d := 1) (x := queries80.run load80 (.refinement (.component "A" none) (.component "O" none)))
    (by decide +kernel)
  have h11 := refinementAnswer_yes (d := 2) (x := queries80.run load80 (.refinement (.component "A" none) (.component "A" none)))
    (by decide +kernel)
  have := C80_transitive_partial dim_fedD queries80 queries80_fair load80 load80_numbered (.component "A" none)
    (.component "P" none) (.component "O" none) trivial trivial trivial 2 1 1 _ _ _ _ _ _
    (asks80 (l := .component (exQuick79 1) none) (r := .component (exFree79 "P" "out" 2) none) (by decide) rfl rfl (by
      intro c hc; simp [Recipe.components, comps80] at hc ⊢; tauto) (means80 (getOk_eq (by decide +kernel)))
      (means80 (getOk_eq (by decide +kernel))))
    (asks80 (l := .component (exFree79 "P" "out" 1) none) (r := .component (exSay80 "O" "out") none) (by decide) rfl rfl (by
      intro c hc; simp [Recipe.components, comps80] at hc ⊢; tauto) (means80 (getOk_eq (by decide +kernel)))
      (means80 (getOk_eq (by decide +kernel))))
    (asks80 (l := .component (exQuick79 1) none) (r := .component (exSay80 "O" "out") none) (by decide) rfl rfl (by
      intro c hc; simp [Recipe.components, comps80] at hc ⊢; tauto) (means80 (getOk_eq (by decide +kernel)))
      (means80 (getOk_eq (by decide +kernel))))
    (waits80 (by decide +kernel)) (waits80 (by decide +kernel)) (by decide +kernel) 2 1 1 none (fun _ _ h => by cases h)
    h12 h23 h13
  have := C80_reflexive_partial dim_fedD queries80 queries80_fair load80 load80_numbered (.component "A" none) trivial 2 _ _
    (asks80 (l := .component (exQuick79 1) none) (r := .component (exQuick79 2) none) (by decide) rfl rfl (by
      intro c hc; simp [Recipe.components, comps80] at hc ⊢; tauto) (means80 (getOk_eq (by decide +kernel)))
      (means80 (getOk_eq (by decide +kernel)))) (by decide +kernel) 2 none (fun _ _ h => by cases h) h11
  exact ⟨h13, h11⟩

theorem noInputs_enabled {F : Type} [ZoneLib F] {s : Sys F} (h : s.inputs = []) : s.ts.InputEnabled := by
  intro l v _ i hi
  have hi : i ∈ s.inputs := hi
  rw [h] at hi
  cases hi

theorem conj80 {d : Nat} {c c' : Component} {S X Y : Sys (FedD d) × Nat}
    (hS : (Recipe.conjunction (.component c none) (.component c' none)).compile (env80 d) 0 = .ok S)
    (hX : (Recipe.component c none).compile (env80 d) 0 = .ok X)
    (hY : (Recipe.component c' none).compile (env80 d) 1 = .ok Y) : Sys.newConjunctionUnchecked X.1 Y.1 = .ok S.1 := by
  obtain ⟨⟨x, i⟩, h1, hS⟩ := bind_ok hS
  obtain ⟨⟨y, j⟩, h2, hS⟩ := bind_ok hS
  obtain ⟨z, h3, hS⟩ := bind_ok hS
  cases hS
  have h1' : (Recipe.component c none).compile (env80 d) 0 = .ok (x, i) := h1
  have hi : i = 1 := by
    obtain ⟨w, _, h⟩ := bind_ok h1'
    cases h; rfl
  subst hi
  rw [hX] at h1'
  have h2' : (Recipe.component c' none).compile (env80 d) 1 = .ok (y, j) := h2
  rw [hY] at h2'
  cases h1'; cases h2'
  exact newConjunction_unchecked h3

theorem comp80 {d : Nat} {c c' : Component} {S X Y : Sys (FedD d) × Nat}
    (hS : (Recipe.composition (.component c none) (.component c' none)).compile (env80 d) 0 = .ok S)
    (hX : (Recipe.component c none).compile (env80 d) 0 = .ok X)
    (hY : (Recipe.component c' none).compile (env80 d) 1 = .ok Y) : Sys.newComposition X.1 Y.1 = .ok S.1 := by
  obtain ⟨⟨x, i⟩, h1, hS⟩ := bind_ok hS
  obtain ⟨⟨y, j⟩, h2, hS⟩ := bind_ok hS
  obtain ⟨z, h3, hS⟩ := bind_ok hS
  cases hS
  have h1' : (Recipe.component c none).compile (env80 d) 0 = .ok (x, i) := h1
  have hi : i = 1 := by
    obtain ⟨w, _, h⟩ := bind_ok h1'
    cases h; rfl
  subst hi
  rw [hX] at h1'
  have h2' : (Recipe.component c' none).compile (env80 d) 1 = .ok (y, j) := h2
  rw [hY] at h2'
  cases h1'; cases h2'
  exact h3

theorem same80 {l l' : List String} (h : l = l') (a : String) : a ∈ l ↔ a ∈ l' := by rw [h]

theorem starts80 {F : Type} [ZoneLib F] {s t : Sys F} (h : (match s.initialLoc, t.initialLoc with
    | .ok (some _), .ok (some _) => true | _, _ => false) = true) :
    (∃ a, s.initialLoc = .ok (some a)) ↔ ∃ b, t.initialLoc = .ok (some b) := by
  split at h
  · rename_i a b ha hb
    exact ⟨fun _ => ⟨b, hb⟩, fun _ => ⟨a, ha⟩⟩
  · cases h

/-- The two copies of `A` in `A <= A` can wait as long. -/
theorem waitsA80 : Sys.WaitsAsLong
    (getOk ((Recipe.component (exQuick79 1) none).compile (env80 2) 0) (by decide +kernel)).1
    (getOk ((Recipe.component (exQuick79 2) none).compile (env80 2) 0) (by decide +kernel)).1 := by
  obtain ⟨f, _⟩ := same_expression (F := FedD 2) (G := FedD 2) load80_numbered (e := .component "A" none) trivial (k := 0)
    (m := 1) (q := none) (p := none) (r := .component (exQuick79 1) none) (r' := .component (exQuick79 2) none) rfl rfl
    (by decide) (fun c hm => by rw [List.mem_singleton.1 hm]; exact (exQuick79_reducible (.inl rfl)).1)
    (means80 (getOk_eq (by decide +kernel))) (means80 (getOk_eq (by decide +kernel)))
  exact fun l m hl hm d hd => f.waits hl hm hd

/-- Non-vacuity: `A && O <= A` is answered with yes. -/
example : queries80.run load80 (.refinement (.conjunction (.component "A" none) (.component "O" none)) (.component "A" none)) =
    .ok (.refinement 2 none) := by
  have h1 := refinementAnswer_yes (d := 2) (x := queries80.run load80 (.refinement (.conjunction (.component "A" none)
    (.component "O" none)) (.component "A" none))) (by decide +kernel)
  have a1 := C80_conjunction_left_partial dim_fedD queries80 queries80_fair load80 load80_numbered (.component "A" none)
    (.component "O" none) trivial trivial 2 _ _ _ _
    (asks80 (l := .conjunction (.component (exQuick79 1) none) (.component (exSay80 "O" "out") none))
      (r := .component (exQuick79 2) none) (by decide) rfl rfl (by
      intro c hc; simp [Recipe.components, comps80] at hc ⊢; tauto) (means80 (getOk_eq (by decide +kernel)))
      (means80 (getOk_eq (by decide +kernel))))
    (conj80 (getOk_eq _) (getOk_eq (by decide +kernel)) (getOk_eq (by decide +kernel))) (same80 (by decide +kernel))
    (same80 (by decide +kernel)) (starts80 (by decide +kernel)) (noInputs_enabled (by decide +kernel)) 2 none
    (fun _ _ h => by cases h) h1
  exact h1

/-- Non-vacuity: `A && O <= O` is answered with yes. -/
example : queries80.run load80 (.refinement (.conjunction (.component "A" none) (.component "O" none)) (.component "O" none)) =
    .ok (.refinement 1 none) := by
  have h2 := refinementAnswer_yes (d := 1) (x := queries80.run load80 (.refinement (.conjunction (.component "A" none)
    (.component "O" none)) (.component "O" none))) (by decide +kernel)
  have a2 := C80_conjunction_right_partial dim_fedD queries80 queries80_fair load80 load80_numbered (.component "A" none)
    (.component "O" none) trivial trivial 1 _ _ _ _
    (asks80 (l := .conjunction (.component (exQuick79 1) none) (.component (exSay80 "O" "out") none))
      (r := .component (exSay80 "O" "out") none) (by decide) rfl rfl (by
      intro c hc; simp [Recipe.components, comps80] at hc ⊢; tauto) (means80 (getOk_eq (by decide +kernel)))
      (means80 (getOk_eq (by decide +kernel))))
    (conj80 (getOk_eq _) (getOk_eq (by decide +kernel)) (getOk_eq (by decide +kernel))) (same80 (by decide +kernel))
    (same80 (by decide +kernel)) (starts80 (by decide +kernel)) (noInputs_enabled (by decide +kernel)) 1 none
    (fun _ _ h => by cases h) h2
  exact h2

/-- Non-vacuity: `A <= A`, `A <= O` and `A <= A && O` are answered with yes. -/
example : queries80.run load80 (.refinement (.component "A" none) (.conjunction (.component "A" none) (.component "O" none))) =
    .ok (.refinement 2 none) := by
  have k1 := refinementAnswer_yes (d := 2) (x := queries80.run load80 (.refinement (.component "A" none) (.component "A" none)))
    (by decide +kernel)
  have k2 := refinementAnswer_yes (d := 1) (x := queries80.run load80 (.refinement (.component "A" none) (.component "O" none)))
    (by decide +kernel)
  have h3 := refinementAnswer_yes (d := 2) (x := queries80.run load80 (.refinement (.component "A" none)
    (.conjunction (.component "A" none) (.component "O" none)))) (by decide +kernel)
  have a3 := C80_conjunction_greatest_partial dim_fedD queries80 queries80_fair load80 load80_numbered (.component "A" none)
    (.component "A" none) (.component "O" none) trivial trivial trivial 2 1 2 _ _ _ _ _ _ _ _
    (asks80 (e := .component "A" none) (e' := .component "A" none) (l := .component (exQuick79 1) none)
  (r := .component (exQuick79 2) none) (d := 2) (by decide) rfl rfl (by
    intro c hc; simp [Recipe.components, comps80] at hc ⊢; tauto) (means80 (getOk_eq (by decide +kernel)))
    (means80 (getOk_eq (by decide +kernel))))
    (asks80 (e := .component "A" none) (e' := .component "O" none) (l := .component (exQuick79 1) none)
  (r := .component (exSay80 "O" "out") none) (d := 1) (by decide) rfl rfl (by
    intro c hc; simp [Recipe.components, comps80] at hc ⊢; tauto) (means80 (getOk_eq (by decide +kernel)))
    (means80 (getOk_eq (by decide +kernel))))
    (asks80 (e := .component "A" none) (e' := .conjunction (.component "A" none) (.component "O" none))
  (l := .component (exQuick79 1) none) (r := .conjunction (.component (exQuick79 2) none) (.component (exSay80 "O" "out") none))
  (d := 2) (by decide) rfl rfl (by
    intro c hc; simp [Recipe.components, comps80] at hc ⊢; tauto) (means80 (getOk_eq (by decide +kernel)))
    (means80 (getOk_eq (by decide +kernel))))
    (conj80 (getOk_eq _) (getOk_eq (by decide +kernel)) (getOk_eq (by decide +kernel))) (same80 (by decide +kernel))
    waitsA80 (waits80 (by decide +kernel)) 2 1 2 none (fun _ _ h => by cases h) k1 k2 h3
  exact h3

/-- Non-vacuity: `A <= O` and `A || N <= O || N` are answered with yes. -/
example : queries80.run load80 (.refinement (.composition (.component "A" none) (.component "N" none))
    (.composition (.component "O" none) (.component "N" none))) = .ok (.refinement 1 none) := by
  have k1 := refinementAnswer_yes (d := 1) (x := queries80.run load80 (.refinement (.component "A" none) (.component "O" none)))
    (by decide +kernel)
  have h1 := refinementAnswer_yes (d := 1) (x := queries80.run load80 (.refinement (.composition (.component "A" none)
    (.component "N" none)) (.composition (.component "O" none) (.component "N" none)))) (by decide +kernel)
  have a1 := C80_composition_monotone_partial dim_fedD queries80 queries80_fair load80 load80_numbered (.component "A" none)
    (.component "O" none) (.component "N" none) trivial trivial trivial 1 1 _ _ _ _ _ _ _ _
    (asks80 (l := .component (exQuick79 1) none) (r := .component (exSay80 "O" "out") none) (by decide) rfl rfl (by
      intro c hc; simp [Recipe.components, comps80] at hc ⊢; tauto) (means80 (getOk_eq (by decide +kernel)))
      (means80 (getOk_eq (by decide +kernel))))
    (asks80 (l := .composition (.component (exQuick79 1) none) (.component (exSay80 "N" "tick") none))
      (r := .composition (.component (exSay80 "O" "out") none) (.component (exSay80 "N" "tick") none)) (by decide) rfl rfl (by
      intro c hc; simp [Recipe.components, comps80] at hc ⊢; tauto) (means80 (getOk_eq (by decide +kernel)))
      (means80 (getOk_eq (by decide +kernel))))
    (comp80 (getOk_eq _) (getOk_eq (by decide +kernel)) (getOk_eq (by decide +kernel)))
    (comp80 (getOk_eq _) (getOk_eq (by decide +kernel)) (getOk_eq (by decide +kernel)))
    (waits80 (by decide +kernel)) (noInputs_enabled (by decide +kernel)) (by decide +kernel) (by decide +kernel)
    (by decide +kernel) 1 1 none (fun _ _ h => by cases h) k1 h1
  exact h1

end Reveaal
