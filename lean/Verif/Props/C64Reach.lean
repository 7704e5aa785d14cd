import Verif.Props.C64
import Verif.Props.C70
import Verif.Props.C46

/-!
# C64: reachability queries are answered about the systems they name
-/

namespace Reveaal
open ZoneLib

/-- The invariants of the component are deadlines: if one holds after some time has passed, it held before. -/
def Component.Deadlines (n : Nat) (c : Component) : Prop :=
  ∀ l ∈ c.locations, ∀ v d, Valid n v → 0 ≤ d → HoldsOpt c.decls (delay n v d) l.invariant → HoldsOpt c.decls v l.invariant

/-- The goal compares clocks with numbers only: a conjunction of locations of components and such comparisons. -/
inductive StateExpr.Boxed (r : Recipe) : StateExpr → Prop
  | cmp (op : Cmp) (x : CompVar) (k : Int) : Boxed r (.cmp op (.clock x) (.number k))
  | cmp' (op : Cmp) (k : Int) (x : CompVar) : Boxed r (.cmp op (.number k) (.clock x))
  | and {es : List StateExpr} (h : ∀ e ∈ es, Boxed r e) : Boxed r (.and es)
  | location {x : CompVar} (h : ∃ c, (c, x.specialId) ∈ r.namedComponents ∧ c.name = x.component) :
      Boxed r (.location x)
  | bool (b : Bool) : Boxed r (.bool b)

/-- The assumption on the bounds of a zone: if the zone restricts every clock to an interval, independently of the others,
then the bounds are right for it. -/
def BoxBounds {F : Type} [ZoneLib F] (zoneBounds : F → Bounds) : Prop :=
  ∀ z, (∃ I : Nat → Set ℝ, (∀ i, (I i).OrdConnected) ∧ den z = {v | Valid (dim F) v ∧ ∀ i < dim F, v i ∈ I i}) →
    (zoneBounds z).Covers (dim F) (den z)

section
variable {F : Type} [ZoneLib F]

theorem compose_shape {r r' : Recipe} {a b x : LocTree F} {k : CompType} (h : LocTree.compose a b k = .ok x)
    (ha : r.Shape a.id) (hb : r'.Shape b.id) :
    (k = .composition → (Recipe.composition r r').Shape x.id) ∧ (k = .conjunction → (Recipe.conjunction r r').Shape x.id) := by
  constructor <;> rintro rfl <;> cases h
  · exact .composition ha hb
  · exact .conjunction ha hb

/-- The system of a recipe without quotients: its locations say where the components are. -/
theorem Recipe.compile_shape : ∀ {r : Recipe} {env : CompileEnv F} {i j : Nat} {s : Sys F}, env.Perm → r.Ok (dim F) →
    r.quotientClocks = [] → r.compile env i = .ok (s, j) → ∀ l, s.IsLoc l → r.Shape l.id
  | .composition l r, env, i, j, s, he, ho, hq, h => by
    obtain ⟨hl, hr⟩ := Recipe.Ok.split (p := l.quotientClocks) (q := r.quotientClocks) ho
    obtain ⟨q1, q2⟩ := List.append_eq_nil_iff.1 hq
    obtain ⟨⟨sl, k⟩, h1, h⟩ := bind_ok h
    obtain ⟨⟨sr, k'⟩, h2, h⟩ := bind_ok h
    obtain ⟨s', h3, h⟩ := bind_ok h
    cases h
    obtain ⟨_, rfl⟩ := Sys.newComposition_eq h3
    rintro x ⟨a, b, ha, hb, hx⟩
    exact (compose_shape hx (compile_shape (env := env.sub false) he hl q1 h1 a ha)
      (compile_shape (env := env.sub true) he hr q2 h2 b hb)).1 rfl
  | .conjunction l r, env, i, j, s, he, ho, hq, h => by
    obtain ⟨hl, hr⟩ := Recipe.Ok.split (p := l.quotientClocks) (q := r.quotientClocks) ho
    obtain ⟨q1, q2⟩ := List.append_eq_nil_iff.1 hq
    obtain ⟨⟨sl, k⟩, h1, h⟩ := bind_ok h
    obtain ⟨⟨sr, k'⟩, h2, h⟩ := bind_ok h
    obtain ⟨s', h3, h⟩ := bind_ok h
    cases h
    obtain ⟨_, _, rfl⟩ := Sys.newConjunction_eq (newConjunction_unchecked h3)
    rintro x ⟨a, b, ha, hb, hx⟩
    exact (compose_shape hx (compile_shape (env := env.sub false) he hl q1 h1 a ha)
      (compile_shape (env := env.sub true) he hr q2 h2 b hb)).2 rfl
  | .quotient l r q, env, i, j, s, he, ho, hq, h => by exact absurd hq (by simp [Recipe.quotientClocks])
  | .component c id, env, i, j, s, he, ho, hq, h => by
    obtain ⟨x, h1, h⟩ := bind_ok h
    cases h
    rintro l ⟨p, hp, rfl⟩
    obtain ⟨_, _, hlocs, _⟩ := compileWith_content (he i) h1
    obtain ⟨_, loc, _, hs⟩ := hlocs p hp
    obtain ⟨inv, hl, _⟩ := simple_spec hs
    rw [hl]
    exact .component _ _ _

/-- The system of a recipe of components whose guards compare clocks with numbers and whose invariants are deadlines. -/
theorem Recipe.compile_ofPlain : ∀ {r : Recipe} {env : CompileEnv F} {i j : Nat} {s : Sys F}, env.Perm → r.Ok (dim F) →
    (∀ c ∈ r.components, c.Clear (dim F) ∧ c.Plain ∧ c.Deadlines (dim F)) →
    r.compile env i = .ok (s, j) → s.OfPlain ∧ ∀ l, s.IsLoc l → PastClosed l
  | .composition l r, env, i, j, s, he, ho, hc, h => by
    obtain ⟨hl, hr⟩ := Recipe.Ok.split (p := l.quotientClocks) (q := r.quotientClocks) ho
    obtain ⟨⟨sl, k⟩, h1, h⟩ := bind_ok h
    obtain ⟨⟨sr, k'⟩, h2, h⟩ := bind_ok h
    obtain ⟨s', h3, h⟩ := bind_ok h
    cases h
    obtain ⟨p1, t1⟩ := compile_ofPlain (env := env.sub false) he hl (fun c h => hc c (List.mem_append_left _ h)) h1
    obtain ⟨p2, t2⟩ := compile_ofPlain (env := env.sub true) he hr (fun c h => hc c (List.mem_append_right _ h)) h2
    refine ⟨.composition p1 p2 h3, ?_⟩
    obtain ⟨_, rfl⟩ := Sys.newComposition_eq h3
    rintro x ⟨a, b, ha, hb, hx⟩ v d hv hd hm
    rw [mem_compose_inv hx] at *
    exact ⟨t1 a ha v d hv hd hm.1, t2 b hb v d hv hd hm.2⟩
  | .conjunction l r, env, i, j, s, he, ho, hc, h => by
    obtain ⟨hl, hr⟩ := Recipe.Ok.split (p := l.quotientClocks) (q := r.quotientClocks) ho
    obtain ⟨⟨sl, k⟩, h1, h⟩ := bind_ok h
    obtain ⟨⟨sr, k'⟩, h2, h⟩ := bind_ok h
    obtain ⟨s', h3, h⟩ := bind_ok h
    cases h
    obtain ⟨p1, t1⟩ := compile_ofPlain (env := env.sub false) he hl (fun c h => hc c (List.mem_append_left _ h)) h1
    obtain ⟨p2, t2⟩ := compile_ofPlain (env := env.sub true) he hr (fun c h => hc c (List.mem_append_right _ h)) h2
    refine ⟨.conjunction p1 p2 (newConjunction_unchecked h3), ?_⟩
    obtain ⟨_, _, rfl⟩ := Sys.newConjunction_eq (newConjunction_unchecked h3)
    rintro x ⟨a, b, ha, hb, hx⟩ v d hv hd hm
    rw [mem_compose_inv hx] at *
    exact ⟨t1 a ha v d hv hd hm.1, t2 b hb v d hv hd hm.2⟩
  | .quotient l r q, env, i, j, s, he, ho, hc, h => by
    obtain ⟨hl, hr, h0, hn⟩ := Recipe.Ok.quotient ho
    obtain ⟨⟨sl, k⟩, h1, h⟩ := bind_ok h
    obtain ⟨⟨sr, k'⟩, h2, h⟩ := bind_ok h
    obtain ⟨s', h3, h⟩ := bind_ok h
    cases h
    obtain ⟨p1, _⟩ := compile_ofPlain (env := env.sub false) he hl (fun c h => hc c (List.mem_append_left _ h)) h1
    obtain ⟨p2, _⟩ := compile_ofPlain (env := env.sub true) he hr (fun c h => hc c (List.mem_append_right _ h)) h2
    refine ⟨.quotient p1 p2 h0 hn (newQuotient_unchecked h3), ?_⟩
    obtain ⟨_, rfl⟩ := Sys.newQuotient_eq (newQuotient_unchecked h3)
    rintro x (⟨a, b, _, _, rfl⟩ | rfl | rfl) v d hv hd hm
    · intro i hi; cases hi
    · intro i hi; cases hi
    · exact pastClosed_errorLoc h0 hn v d hv hd hm
  | .component c id, env, i, j, s, he, ho, hc, h => by
    obtain ⟨x, h1, h⟩ := bind_ok h
    cases h
    obtain ⟨cl, pl, dl⟩ := hc c (List.mem_singleton.2 rfl)
    refine ⟨.comp cl.ok pl (he i) h1, ?_⟩
    rintro l ⟨p, hp, rfl⟩ v d hv hd hm
    obtain ⟨_, _, hlocs, _⟩ := compileWith_content (he i) h1
    obtain ⟨_, loc, hloc, hs⟩ := hlocs p hp
    rw [invSet_exact cl hloc hs (delay_valid hv hd)] at hm
    exact (invSet_exact cl hloc hs hv).2 (dl loc hloc v d hv hd hm)

theorem getState_pattern {r : Recipe} {env : CompileEnv F} {i j : Nat} {s : Sys F} (he : env.Perm) (ho : r.Ok (dim F))
    (h : r.compile env i = .ok (s, j)) {e : StateExpr} {st : State F} (hst : getState e r s = .ok st) :
    s.IsPattern st.loc := by
  obtain ⟨_, vs, g, _, h6, h7, _⟩ := getState_parts hst
  exact (locationTree_spec (ambiguousLocations_spec h6) he ho h h7).1

/-- The special locations of quotients are matched by nothing that a query can say. -/
theorem Recipe.shape_of_matches : ∀ {r : Recipe} {env : CompileEnv F} {i j : Nat} {s : Sys F}, env.Perm →
    r.compile env i = .ok (s, j) → ∀ {t : LocTree F}, s.IsPattern t → ∀ {l}, s.IsLoc l → t.id.Matches l.id → r.Shape l.id
  | .composition l r, env, i, j, s, he, h, t, hp, x, hx, hm => by
    obtain ⟨⟨sl, k⟩, h1, h⟩ := bind_ok h
    obtain ⟨⟨sr, k'⟩, h2, h⟩ := bind_ok h
    obtain ⟨s', h3, h⟩ := bind_ok h
    cases h
    obtain ⟨_, rfl⟩ := Sys.newComposition_eq h3
    obtain ⟨pa, pb, hpa, hpb, ht⟩ := hp
    obtain ⟨a, b, ha, hb, hx⟩ := hx
    cases ht; cases hx
    rw [LocTree.id, LocTree.id] at hm
    rw [LocTree.id]
    cases hm with
    | composition m1 m2 =>
      exact .composition (shape_of_matches (env := env.sub false) he h1 hpa ha m1)
        (shape_of_matches (env := env.sub true) he h2 hpb hb m2)
  | .conjunction l r, env, i, j, s, he, h, t, hp, x, hx, hm => by
    obtain ⟨⟨sl, k⟩, h1, h⟩ := bind_ok h
    obtain ⟨⟨sr, k'⟩, h2, h⟩ := bind_ok h
    obtain ⟨s', h3, h⟩ := bind_ok h
    cases h
    obtain ⟨_, _, rfl⟩ := Sys.newConjunction_eq (newConjunction_unchecked h3)
    obtain ⟨pa, pb, hpa, hpb, ht⟩ := hp
    obtain ⟨a, b, ha, hb, hx⟩ := hx
    cases ht; cases hx
    rw [LocTree.id, LocTree.id] at hm
    rw [LocTree.id]
    cases hm with
    | conjunction m1 m2 =>
      exact .conjunction (shape_of_matches (env := env.sub false) he h1 hpa ha m1)
        (shape_of_matches (env := env.sub true) he h2 hpb hb m2)
  | .quotient l r q, env, i, j, s, he, h, t, hp, x, hx, hm => by
    obtain ⟨⟨sl, k⟩, h1, h⟩ := bind_ok h
    obtain ⟨⟨sr, k'⟩, h2, h⟩ := bind_ok h
    obtain ⟨s', h3, h⟩ := bind_ok h
    cases h
    obtain ⟨_, rfl⟩ := Sys.newQuotient_eq (newQuotient_unchecked h3)
    obtain ⟨pa, pb, hpa, hpb, rfl⟩ := hp
    rcases hx with ⟨a, b, ha, hb, rfl⟩ | rfl | rfl
    · rw [LocTree.merge, LocTree.merge, LocTree.id, LocTree.id] at hm
      rw [LocTree.merge, LocTree.id]
      cases hm with
      | quotient m1 m2 =>
        exact .quotient (shape_of_matches (env := env.sub false) he h1 hpa ha m1)
          (shape_of_matches (env := env.sub true) he h2 hpb hb m2)
    · cases hm
    · cases hm
  | .component c id, env, i, j, s, he, h, t, hp, x, hx, hm => by
    obtain ⟨y, h1, h⟩ := bind_ok h
    cases h
    obtain ⟨p, hp, rfl⟩ := hx
    obtain ⟨_, _, hlocs, _⟩ := compileWith_content (he i) h1
    obtain ⟨_, loc, _, hs⟩ := hlocs p hp
    obtain ⟨inv, hl, _⟩ := simple_spec hs
    rw [hl]
    exact .component _ _ _

end

/-! ## Goals -/

theorem StateExpr.Boxed.plain {r : Recipe} {e : StateExpr} (h : e.Boxed r) : e.Plain r := by
  have hc : ∀ {x : CompVar} {a : Arith}, (Operand.clock x).toArith r.namedComponents = .ok a → PosSide ⟨[], []⟩ a := by
    intro x a h
    rw [Operand.toArith] at h
    split at h
    · cases h
    split at h
    · cases h
    cases h
    exact .chain (.clock (x := _) (.inl rfl))
  induction h with
  | cmp op x k =>
    refine .cmp fun a b ha hb => .posConst (hc ha) ?_
    cases hb; rfl
  | cmp' op k x =>
    refine .cmp fun a b ha hb => .constPos ?_ (hc hb)
    cases ha; rfl
  | and _ ih => exact .and ih
  | location h => exact .location h
  | bool b => exact .bool b

/-- Names of clocks are unique if no two components have the same name. -/
theorem hasClock_unique {r : Recipe} (hamb : ambiguousComponents r.namedComponents = false) {x : CompVar} {i j : Nat}
    (hi : r.HasClock x i) (hj : r.HasClock x j) : i = j := by
  obtain ⟨c, hc, h1, h2⟩ := hi
  obtain ⟨c', hc', h1', h2'⟩ := hj
  have : c = c' := by
    by_contra hne
    unfold ambiguousComponents at hamb
    rw [List.any_eq_false] at hamb
    have := hamb _ hc
    rw [Bool.not_eq_true, List.any_eq_false] at this
    have := this _ hc'
    simp [hne, h1, h1'] at this
  subst this
  exact Option.some.inj (h2.symm.trans h2')

/-- The clock values a goal asks for. -/
theorem StateExpr.Boxed.box {r : Recipe} {n : Nat} (hn : 0 < n) (hamb : ambiguousComponents r.namedComponents = false)
    (hd : ∀ x i, r.HasClock x i → i < n) {e : StateExpr} (h : e.Boxed r) :
    ∃ I : Nat → Set ℝ, (∀ i, (I i).OrdConnected) ∧ ∀ v, e.SatClocks r v ↔ ∀ i < n, v i ∈ I i := by
  have none : ∃ I : Nat → Set ℝ, (∀ i, (I i).OrdConnected) ∧ ∀ v : Val, False ↔ ∀ i < n, v i ∈ I i :=
    ⟨fun _ => ∅, fun _ => Set.ordConnected_empty, fun v => ⟨False.elim, fun h => h 0 hn⟩⟩
  have one : ∀ (x : CompVar) (S : Set ℝ), S.OrdConnected → ∃ I : Nat → Set ℝ, (∀ i, (I i).OrdConnected) ∧
      ∀ v : Val, (∃ i, r.HasClock x i ∧ v i ∈ S) ↔ ∀ i < n, v i ∈ I i := by
    intro x S hS
    by_cases hx : ∃ i, r.HasClock x i
    · obtain ⟨i, hi⟩ := hx
      refine ⟨fun j => if j = i then S else Set.univ, fun j => ?_, fun v => ⟨?_, fun h => ?_⟩⟩
      · dsimp only
        split
        · exact hS
        · exact Set.ordConnected_univ
      · rintro ⟨i', hi', hv⟩ j _
        rw [hasClock_unique hamb hi' hi] at hv
        dsimp only
        split
        · next e => rw [e]; exact hv
        · trivial
      · have := h i (hd x i hi)
        simp only [if_true] at this
        exact ⟨i, hi, this⟩
    · obtain ⟨I, h1, h2⟩ := none
      exact ⟨I, h1, fun v => by rw [← h2 v]; exact ⟨fun ⟨i, hi, _⟩ => hx ⟨i, hi⟩, False.elim⟩⟩
  induction h with
  | cmp op x k =>
    obtain ⟨I, h1, h2⟩ := one x {t | op.Rel t k} (by
      constructor
      rintro a ha b hb t ⟨h3, h4⟩
      cases op <;> simp only [Cmp.Rel, Set.mem_ofPred_eq] at * <;> linarith)
    refine ⟨I, h1, fun v => ?_⟩
    rw [← h2 v, StateExpr.SatClocks]
    constructor
    · rintro ⟨_, _, hx, hy, h⟩
      cases hx with | clock hx => cases hy; exact ⟨_, hx, h⟩
    · rintro ⟨i, hi, h⟩
      exact ⟨_, _, .clock hi, .number k, h⟩
  | cmp' op k x =>
    obtain ⟨I, h1, h2⟩ := one x {t | op.Rel k t} (by
      constructor
      rintro a ha b hb t ⟨h3, h4⟩
      cases op <;> simp only [Cmp.Rel, Set.mem_ofPred_eq] at * <;> linarith)
    refine ⟨I, h1, fun v => ?_⟩
    rw [← h2 v, StateExpr.SatClocks]
    constructor
    · rintro ⟨_, _, hx, hy, h⟩
      cases hy with | clock hy => cases hx; exact ⟨_, hy, h⟩
    · rintro ⟨i, hi, h⟩
      exact ⟨_, _, .number k, .clock hi, h⟩
  | @and es hes ih =>
    choose I hI using fun e : {e // e ∈ es} => ih e.1 e.2
    refine ⟨fun i => ⋂ e, I e i, fun i => Set.ordConnected_iInter fun e => (hI e).1 i, fun v => ?_⟩
    rw [StateExpr.SatClocks, allClocks_iff]
    simp only [Set.mem_iInter]
    constructor
    · intro h i hi e
      exact ((hI e).2 v).1 (h e.1 e.2) i hi
    · intro h e he
      exact ((hI ⟨e, he⟩).2 v).2 fun i hi => h i hi ⟨e, he⟩
  | location _ =>
    exact ⟨fun _ => Set.univ, fun _ => Set.ordConnected_univ, fun v => by rw [StateExpr.SatClocks]; simp⟩
  | bool b =>
    cases b with
    | true => exact ⟨fun _ => Set.univ, fun _ => Set.ordConnected_univ, fun v => by rw [StateExpr.SatClocks]; simp⟩
    | false =>
      obtain ⟨I, h1, h2⟩ := none
      exact ⟨I, h1, fun v => by rw [StateExpr.SatClocks, ← h2 v]; simp⟩

theorem namedComponents_zip {r : Recipe} {c : Component} {i : Option String} (h : (c, i) ∈ r.namedComponents) :
    (c, c) ∈ r.components.zip r.components := by
  have := namedComponents_mem h
  obtain ⟨k, hk, e⟩ := List.mem_iff_getElem.1 this
  rw [List.mem_iff_getElem]
  exact ⟨k, by simpa using hk, by rw [List.getElem_zip, e]⟩

theorem hasClock_same {r : Recipe} {v w : Val} (h : r.SameValues r v w) {x : CompVar} {i : Nat} (hi : r.HasClock x i) :
    v i = w i := by
  obtain ⟨c, hc, _, h2⟩ := hi
  exact h.1 _ (namedComponents_zip hc) _ _ _ h2 h2

theorem Operand.value_same {r : Recipe} {v w : Val} (h : r.SameValues r v w) {o : Operand} {x : ℝ} (hx : o.Value r v x) :
    o.Value r w x := by
  induction hx with
  | number n => exact .number n
  | clock hi => rw [hasClock_same h hi]; exact .clock hi
  | difference _ _ ih1 ih2 => exact .difference ih1 ih2
  | sum _ _ ih1 ih2 => exact .sum ih1 ih2

theorem Recipe.SameValues.symm {r : Recipe} {v w : Val} (h : r.SameValues r v w) : r.SameValues r w v := by
  refine ⟨fun p hp n i i' h1 h2 => ?_, fun p hp => ?_⟩
  · have hp' : p.1 = p.2 := by
      obtain ⟨k, hk, e⟩ := List.mem_iff_getElem.1 hp
      rw [List.getElem_zip] at e
      rw [← e]
    rw [hp'] at h1
    have := h.1 p hp n i' i' (by rw [hp']; exact h2) h2
    rw [h1] at h2
    cases h2
    exact this.symm
  · have hp' : p.1 = p.2 := by
      obtain ⟨k, hk, e⟩ := List.mem_iff_getElem.1 hp
      rw [List.getElem_zip] at e
      rw [← e]
    have := h.2 p hp
    rw [hp'] at this ⊢
    exact this.symm

/-- A goal cannot tell clock values apart that agree for the clocks of the components. -/
theorem plain_sat_same {r : Recipe} {e : StateExpr} (hp : e.Plain r) {l : LocId} {v w : Val} (h : r.SameValues r v w) :
    e.Sat r l v → e.Sat r l w := by
  induction hp with
  | cmp _ =>
    rw [StateExpr.Sat, StateExpr.Sat]
    rintro ⟨x, y, hx, hy, hr⟩
    exact ⟨x, y, Operand.value_same h hx, Operand.value_same h hy, hr⟩
  | and _ ih =>
    rw [StateExpr.Sat, StateExpr.Sat, satAll_iff, satAll_iff]
    exact fun hs e he => ih e he (hs e he)
  | location _ => rw [StateExpr.Sat, StateExpr.Sat]; exact id
  | bool b => rw [StateExpr.Sat, StateExpr.Sat]; exact id

section
variable {F : Type} [ZoneLib F]

/-- The zone of a goal. -/
theorem getState_zone {r : Recipe} (hr : r.Ok (dim F)) {e : StateExpr} (he : e.Plain r) {s : Sys F} {st : State F}
    (h : getState e r s = .ok st) (v : Val) : v ∈ den st.zone ↔ Valid (dim F) v ∧ e.SatClocks r v := by
  obtain ⟨hamb, vs, g, h1, h2, h3, h4, h5⟩ := getState_parts h
  obtain ⟨hg, hdim, hsat⟩ := toBool_clocks hamb (fun c hc => (hr.1 c.1 (namedComponents_mem hc)).decls)
    (plain_readable he) h4
  rcases C01_guard_exact_partial (F := F) ⟨[], []⟩ (fun p hp => by cases hp) g hdim hg univ with ⟨z, h6, h7⟩ | h6
  · rw [h6] at h5
    cases h5
    rw [h7, den_univ, hsat]
    exact Iff.rfl
  · rw [h6] at h5; cases h5

end

/-- Goals that compare clocks with numbers only have zones for which the library finds the right bounds. -/
theorem C64_goal_bounds {F : Type} [ZoneLib F] (zoneBounds : F → Bounds) (hb : BoxBounds zoneBounds) (r : Recipe)
    (hr : r.Ok (dim F)) (hamb : ∀ c ∈ r.namedComponents, ∀ c' ∈ r.namedComponents, c.1.name = c'.1.name → c.2 = c'.2 → c = c')
    (goal : StateExpr) (hg : goal.Boxed r) (z : F) (hz : ∀ v, v ∈ den z ↔ Valid (dim F) v ∧ goal.SatClocks r v) :
    (zoneBounds z).Covers (dim F) (den z) := by
  have hamb' : ambiguousComponents r.namedComponents = false := by
    unfold ambiguousComponents
    rw [List.any_eq_false]
    intro c hcm
    rw [Bool.not_eq_true, List.any_eq_false]
    intro d hdm hh
    simp only [Bool.and_eq_true, decide_eq_true_eq] at hh
    exact hh.1 (hamb c hcm d hdm hh.2.1 hh.2.2)
  obtain ⟨I, h1, h2⟩ := hg.box (dim_pos (F := F)) hamb' (fun x i hi => by
    obtain ⟨c, hc, _, h⟩ := hi
    exact ((hr.1 c (namedComponents_mem hc)).decls _ (lookup_mem h)).2)
  refine hb z ⟨I, h1, ?_⟩
  ext v
  rw [hz, h2]
  exact Iff.rfl

/-! ## Answers -/

section
variable {Z : Nat → Type} [∀ d, ZoneLib (Z d)]

/-- The assumptions on the system of a reachability query: `r` is its recipe, with `d` clocks. -/
structure Recipe.Searchable (r : Recipe) (d : Nat) : Prop where
  /-- clocks have different names in a component and are mentioned by name, guards and invariants are applied as they are
  written, and no edge assigns two values to one clock -/
  comps : ∀ c ∈ r.components, c.Reducible (d + 1) ∧ c.UpdatesAgree

/-- What a reachability query does with the system it names. -/
theorem QueryEnv.reachability_form {X : QueryEnv Z} {load : String → Res Component} {e : SysExpr} {r : Recipe} {d : Nat}
    {q : Option Nat} (hr : getRecipes load [e] 0 none = .ok ([r], d, q)) {start : Option StateExpr} {goal : StateExpr}
    {A : QueryOutcome Z} (h : X.run load (.reachability e start goal) = .ok A) :
    ∃ (s : Sys (Z d)) (j : Nat) (st en : State (Z d)) (p : Option (List (Decision (Z d)))),
      r.compile (X.compiled d) 0 = .ok (s, j) ∧ queryStart r s start = .ok st ∧ getState goal r s = .ok en ∧
      reachabilityQuery (X.compiled d) r start goal = .ok (s, st, en) ∧
      findPath (X.zoneBounds d) s.ts st en X.fuel = .ok p ∧ A = .reachability d p := by
  obtain ⟨⟨r0, d1, q1⟩, ha, hr⟩ := bind_ok hr
  cases hr
  unfold QueryEnv.run at h
  dsimp only at h
  rw [ha, ok_bind] at h
  dsimp only at h
  unfold QueryEnv.reachabilityOf at h
  obtain ⟨⟨s, st, en⟩, h1, h⟩ := bind_ok h
  obtain ⟨p, h2, h⟩ := bind_ok h
  cases h
  have h1' := h1
  unfold reachabilityQuery at h1
  obtain ⟨⟨s', j⟩, h3, h1⟩ := bind_ok h1
  obtain ⟨st', h4, h1⟩ := bind_ok h1
  obtain ⟨en', h5, h1⟩ := bind_ok h1
  cases h1
  exact ⟨s, j, st, en, p, h3, h4, h5, h1', h2, rfl⟩

theorem Recipe.Searchable.ok (hZ : ∀ d, dim (Z d) = d + 1) {load : String → Res Component}
    (hload : ∀ n c, load n = .ok c → c.decls.Numbered) {e : SysExpr} {r : Recipe} {d : Nat}
    {q : Option Nat} (hr : getRecipes load [e] 0 none = .ok ([r], d, q)) (hc : r.Searchable d) : r.Ok (dim (Z d)) := by
  obtain ⟨hnum, hq⟩ := C60_numbered hload hr
  rw [hZ]
  exact ⟨fun c hm => (hc.comps c hm).1.clear.ok, fun i hi => ((numbering hnum).2.2.1 i).1 (.inr (hq i hi))⟩

/-- All systems that a recipe stands for reach the same states. -/
theorem Recipe.Searchable.reach (hZ : ∀ d, dim (Z d) = d + 1) {load : String → Res Component}
    (hload : ∀ n c, load n = .ok c → c.decls.Numbered) {e : SysExpr} {r : Recipe} {d : Nat}
    {q : Option Nat} (hr : getRecipes load [e] 0 none = .ok ([r], d, q)) (hc : r.Searchable d) {s t : Sys (Z d)}
    (hs : r.Means s) (ht : r.Means t) {l : LocTree (Z d)} {v : Val} (h : s.ts.Reach l v) :
    ∃ m w, t.ts.Reach m w ∧ r.SameValues r v w ∧ m.id = l.id := by
  obtain ⟨hnum, hq⟩ := C60_numbered hload hr
  obtain ⟨hnd, hfresh, _⟩ := numbering hnum
  obtain ⟨ρ, hρ, _⟩ := Recipe.ReducedTo.refl (Recipe.Searchable.ok hZ hload hr hc) (by rw [hZ]; exact hc.comps) hnd hfresh hq
  obtain ⟨env, i, j, he, ht⟩ := ht
  obtain ⟨as, at', _, hi, _⟩ := hρ.behaves he hs ht
  obtain ⟨m, w, h1, h2, h3, _⟩ := hi.reach as.good at'.good h
  exact ⟨m, w, h1, h2, h3⟩

/-- **C64** If a reachability query without a start state is answered with no, the system it names cannot get into a state
as the goal says (other than the special states of a quotient, which a goal never stands for). -/
theorem C64_unreachable_partial (hZ : ∀ d, dim (Z d) = d + 1) (X : QueryEnv Z) (hX : X.Fair)
    (load : String → Res Component) (hload : ∀ n c, load n = .ok c → c.decls.Numbered) (e : SysExpr) (r : Recipe) (d : Nat)
    (q : Option Nat) (hr : getRecipes load [e] 0 none = .ok ([r], d, q)) (hc : r.Searchable d) (goal : StateExpr)
    (hg : goal.Plain r) (s : Sys (Z d)) (hs : r.Means s) (d' : Nat)
    (h : X.run load (.reachability e none goal) = .ok (.reachability d' none)) :
    ∀ l v, s.ts.Reach l v → r.Shape l.id → ¬ goal.Sat r l.id v := by
  intro l v hlv hsh hsat
  have hok := Recipe.Searchable.ok hZ hload hr hc
  obtain ⟨t, j, st, en, p, h1, h2, h3, h4, h5, hA⟩ := X.reachability_form hr h
  cases hA
  obtain ⟨m, w, hm, hvw, hid⟩ := Recipe.Searchable.reach hZ hload hr hc hs ⟨_, _, _, (hX.compiled d).2.2.1, h1⟩ hlv
  obtain ⟨ha, _, hp⟩ := C46_query _ (hX.compiled d).2.2.1 r hok none goal t st en h4
  have hst : t.ts.initialState = .ok (some st) := by
    unfold queryStart at h2
    obtain ⟨o, h6, h2⟩ := bind_ok h2
    cases o with
    | none => cases h2
    | some x => cases h2; exact h6
  rw [← hid] at hsh hsat
  have := (C46_meaning_partial _ (hX.compiled d).2.2.1 r hok t 0 j h1 goal hg en h3 m.id hsh w
    (good_reach ha.good hm).2).2 (plain_sat_same hg hvw hsat)
  exact C15_unreachable_from_initial _ t ha st en hst hp X.fuel h5 m w hm this.1 this.2

/-- **C64** A reachability query without a start state is answered with a path exactly if the system it names can get into a
state as the goal says, other than in the special locations of a quotient (which no query can name; without quotients all
locations have the shape of the recipe, `Recipe.compile_shape`): for systems of components that compare clocks with numbers
and whose invariants are deadlines, and for a goal for whose clock values the library finds bounds that are right (see
`C64_goal_bounds`). -/
theorem C64_reachability_partial (hZ : ∀ d, dim (Z d) = d + 1) (X : QueryEnv Z) (hX : X.Fair)
    (load : String → Res Component) (hload : ∀ n c, load n = .ok c → c.decls.Numbered) (e : SysExpr) (r : Recipe) (d : Nat)
    (q : Option Nat) (hr : getRecipes load [e] 0 none = .ok ([r], d, q)) (hc : r.Searchable d)
    (hpl : ∀ c ∈ r.components, c.Plain ∧ c.Deadlines (d + 1)) (goal : StateExpr)
    (hg : goal.Plain r)
    (hz : ∀ z : Z d, (∀ v, v ∈ den z ↔ Valid (d + 1) v ∧ goal.SatClocks r v) → (X.zoneBounds d z).Covers (d + 1) (den z))
    (s : Sys (Z d)) (hs : r.Means s) (d' : Nat) (p : Option (List (Decision (Z d'))))
    (h : X.run load (.reachability e none goal) = .ok (.reachability d' p)) :
    p.isSome = true ↔ ∃ l v, s.ts.Reach l v ∧ r.Shape l.id ∧ goal.Sat r l.id v := by
  have hok := Recipe.Searchable.ok hZ hload hr hc
  obtain ⟨t, j, st, en, p, h1, h2, h3, h4, h5, hA⟩ := X.reachability_form hr h
  cases hA
  have hperm := (hX.compiled d).2.2.1
  have ht : r.Means t := ⟨_, _, _, hperm, h1⟩
  obtain ⟨ha, _, hp⟩ := C46_query _ hperm r hok none goal t st en h4
  have hst : t.ts.initialState = .ok (some st) := by
    unfold queryStart at h2
    obtain ⟨o, h6, h2⟩ := bind_ok h2
    cases o with
    | none => cases h2
    | some x => cases h2; exact h6
  obtain ⟨hpl', hpast⟩ := Recipe.compile_ofPlain hperm hok
    (fun c hm => ⟨by rw [hZ]; exact (hc.comps c hm).1.clear, by rw [hZ]; exact hpl c hm⟩) h1
  have hcov : (X.zoneBounds d en.zone).Covers (dim (Z d)) (den en.zone) := by
    rw [hZ]
    refine hz _ fun v => ?_
    rw [← hZ]
    exact getState_zone hok hg h3 v
  have hmean : ∀ l v, t.ts.Reach l v →
      (r.Shape l.id ∧ goal.Sat r l.id v ↔ en.loc.id.Matches l.id ∧ v ∈ den en.zone) := fun l v hl =>
    ⟨fun h => (C46_meaning_partial _ hperm r hok t 0 j h1 goal hg en h3 l.id h.1 v (good_reach ha.good hl).2).2 h.2,
      fun h =>
        have hsh := Recipe.shape_of_matches hperm h1 hp (good_reach ha.good hl).1 h.1
        ⟨hsh, (C46_meaning_partial _ hperm r hok t 0 j h1 goal hg en h3 l.id hsh v (good_reach ha.good hl).2).1 h⟩⟩
  rw [C70_verdict_partial _ t hpl' hpast st en hst hp hcov X.fuel p h5]
  constructor
  · rintro ⟨l, v, hl, hm⟩
    obtain ⟨m, w, hm', hvw, hid⟩ := Recipe.Searchable.reach hZ hload hr hc ht hs hl
    obtain ⟨hsh, hsat⟩ := (hmean l v hl).2 hm
    exact ⟨m, w, hm', by rw [hid]; exact ⟨hsh, plain_sat_same hg hvw hsat⟩⟩
  · rintro ⟨l, v, hl, hsh, hm⟩
    obtain ⟨m, w, hm', hvw, hid⟩ := Recipe.Searchable.reach hZ hload hr hc hs ht hl
    refine ⟨m, w, hm', (hmean m w hm').1 ?_⟩
    rw [hid]
    exact ⟨hsh, plain_sat_same hg hvw hm⟩

/-- A location that leaves nothing open stands for itself only. -/
theorem matches_full {p : LocId} (hp : p.isPartial = false) : ∀ {l : LocId}, p.Matches l ↔ l = p := by
  induction p with
  | any => cases hp
  | simple n => exact fun {l} => ⟨fun h => by cases h; rfl, fun h => by rw [h]; exact .simple n⟩
  | special n => exact fun {l} => ⟨fun h => by cases h; rfl, fun h => by rw [h]; exact .special n⟩
  | composition a b iha ihb =>
    rw [LocId.isPartial, Bool.or_eq_false_iff] at hp
    exact fun {l} => ⟨fun h => by cases h with | composition h1 h2 => rw [(iha hp.1).1 h1, (ihb hp.2).1 h2],
      fun h => by rw [h]; exact .composition ((iha hp.1).2 rfl) ((ihb hp.2).2 rfl)⟩
  | conjunction a b iha ihb =>
    rw [LocId.isPartial, Bool.or_eq_false_iff] at hp
    exact fun {l} => ⟨fun h => by cases h with | conjunction h1 h2 => rw [(iha hp.1).1 h1, (ihb hp.2).1 h2],
      fun h => by rw [h]; exact .conjunction ((iha hp.1).2 rfl) ((ihb hp.2).2 rfl)⟩
  | quotient a b iha ihb =>
    rw [LocId.isPartial, Bool.or_eq_false_iff] at hp
    exact fun {l} => ⟨fun h => by cases h with | quotient h1 h2 => rw [(iha hp.1).1 h1, (ihb hp.2).1 h2],
      fun h => by rw [h]; exact .quotient ((iha hp.1).2 rfl) ((ihb hp.2).2 rfl)⟩

/-- **C64** A reachability query with a start state is answered with a path exactly if the system it names can get from a
state as the start says, in which the invariant holds, into one as the goal says.  Besides the conditions of
`C64_reachability_partial`: what the start says about clocks stays true when time passes (otherwise the answer can be
wrong, see `C15_violated_start_not_time_closed`). -/
theorem C64_reachability_from_partial (hZ : ∀ d, dim (Z d) = d + 1) (X : QueryEnv Z) (hX : X.Fair)
    (load : String → Res Component) (hload : ∀ n c, load n = .ok c → c.decls.Numbered) (e : SysExpr) (r : Recipe) (d : Nat)
    (q : Option Nat) (hr : getRecipes load [e] 0 none = .ok ([r], d, q)) (hc : r.Searchable d)
    (hpl : ∀ c ∈ r.components, c.Plain ∧ c.Deadlines (d + 1)) (start goal : StateExpr)
    (hst : start.Plain r) (hwait : ∀ v t, Valid (d + 1) v → 0 ≤ t → start.SatClocks r v → start.SatClocks r (delay (d + 1) v t))
    (hg : goal.Plain r)
    (hz : ∀ z : Z d, (∀ v, v ∈ den z ↔ Valid (d + 1) v ∧ goal.SatClocks r v) → (X.zoneBounds d z).Covers (d + 1) (den z))
    (d' : Nat) (p : Option (List (Decision (Z d'))))
    (h : X.run load (.reachability e (some start) goal) = .ok (.reachability d' p)) :
    ∃ s : Sys (Z d), r.Means s ∧ (p.isSome = true ↔ ∃ l₀ v₀ l v, s.IsLoc l₀ ∧ Valid (d + 1) v₀ ∧ r.Shape l₀.id ∧
      start.Sat r l₀.id v₀ ∧ v₀ ∈ InvSet l₀ ∧ s.ts.RunFrom l₀ v₀ l v ∧ r.Shape l.id ∧ goal.Sat r l.id v) := by
  have hok := Recipe.Searchable.ok hZ hload hr hc
  obtain ⟨t, j, st, en, p, h1, h2, h3, h4, h5, hA⟩ := X.reachability_form hr h
  cases hA
  have hperm := (hX.compiled d).2.2.1
  obtain ⟨ha, hloc, hp⟩ := C46_query _ hperm r hok (some start) goal t st en h4
  obtain ⟨x, h6, h2⟩ := bind_ok h2
  split at h2
  · cases h2
  next hfull =>
  cases h2
  rw [Bool.not_eq_true] at hfull
  obtain ⟨hpl', hpast⟩ := Recipe.compile_ofPlain hperm hok
    (fun c hm => ⟨by rw [hZ]; exact (hc.comps c hm).1.clear, by rw [hZ]; exact hpl c hm⟩) h1
  have hcov : (X.zoneBounds d en.zone).Covers (dim (Z d)) (den en.zone) := by
    rw [hZ]
    refine hz _ fun v => ?_
    rw [← hZ]
    exact getState_zone hok hg h3 v
  refine ⟨t, ⟨_, _, _, hperm, h1⟩, ?_, ?_⟩
  · intro hp'
    obtain ⟨ds, rfl⟩ := Option.isSome_iff_exists.1 hp'
    obtain ⟨v₀, hv₀, hi, path, l, v, hrun, _, hm⟩ := C70_reachable_partial _ t hpl' hpast st en hloc hp hcov X.fuel ds h5
    have hrun' := hrun.runFrom (l₀ := st.loc) (v₀ := v₀) .refl
    obtain ⟨hl, hv⟩ := ha.good.run hloc (den_valid hv₀) hrun'
    have hsh₀ := Recipe.shape_of_matches hperm h1 (getState_pattern hperm hok h1 h6) hloc ((matches_full hfull).2 rfl)
    have hsh := Recipe.shape_of_matches hperm h1 hp hl hm.1
    refine ⟨st.loc, v₀, l, v, hloc, by rw [← hZ]; exact den_valid hv₀, hsh₀, ?_, hi, hrun', hsh, ?_⟩
    · exact (C46_meaning_partial _ hperm r hok t 0 j h1 start hst st h6 _ hsh₀ v₀ (den_valid hv₀)).1
        ⟨(matches_full hfull).2 rfl, hv₀⟩
    · exact (C46_meaning_partial _ hperm r hok t 0 j h1 goal hg en h3 l.id hsh v hv).1 hm
  · rintro ⟨l₀, v₀, l, v, hl₀, hv₀, hsh₀, hs, hi, hrun, hsh, hgo⟩
    rw [← hZ] at hv₀
    obtain ⟨h7, h8⟩ := (C46_meaning_partial _ hperm r hok t 0 j h1 start hst st h6 _ hsh₀ v₀ hv₀).2 hs
    have : l₀ = st.loc := ha.good.unique _ _ hl₀ hloc ((matches_full hfull).1 h7)
    subst this
    obtain ⟨hl, hv⟩ := ha.good.run hl₀ hv₀ hrun
    have hm := (C46_meaning_partial _ hperm r hok t 0 j h1 goal hg en h3 l.id hsh v hv).2 hgo
    cases p with
    | some _ => rfl
    | none =>
      refine absurd hm.2 (C15_unreachable_partial _ t ha st en hloc hp ?_ X.fuel h5 v₀ h8 hi l v hrun hm.1)
      intro v hv _ t' ht'
      obtain ⟨h9, h10⟩ := (getState_zone hok hst h6 v).1 hv
      refine (getState_zone hok hst h6 _).2 ⟨delay_valid h9 ht'.1, ?_⟩
      rw [hZ] at h9 ⊢
      exact hwait v t' h9 ht'.1 h10

end

/-! ## Concrete cases -/

/-- Whether the answer to a reachability query is a path, and the number of clocks of the system it was answered for. -/
def reachabilityAnswer : Res (QueryOutcome FedD) → Option (Nat × Bool)
  | .ok (.reachability d p) => some (d, p.isSome)
  | _ => none

theorem reachabilityAnswer_eq {x : Res (QueryOutcome FedD)} {d : Nat} {b : Bool} (h : reachabilityAnswer x = some (d, b)) :
    ∃ p, x = .ok (.reachability d p) ∧ p.isSome = b := by
  unfold reachabilityAnswer at h
  split at h
  · next p =>
    simp only [Option.some.injEq, Prod.mk.injEq] at h
    obtain ⟨rfl, rfl⟩ := h
    exact ⟨p, rfl, rfl⟩
  · cases h

/-- `A.L0 && A.u > k` -/
def exGoal (k : Int) : StateExpr :=
  .and [.location ⟨"A", none, "L0"⟩, .cmp .gt (.clock ⟨"A", none, "u"⟩) (.number k)]

theorem exGoal_boxed (k : Int) : (exGoal k).Boxed (.component exClient none) := by
  refine .and fun e he => ?_
  rcases List.mem_cons.1 he with rfl | he
  · exact .location ⟨exClient, List.mem_singleton.2 rfl, rfl⟩
  · rw [List.mem_singleton.1 he]; exact .cmp _ _ _

theorem exGoal_clocks (k : Int) (v : Val) : (exGoal k).SatClocks (.component exClient none) v ↔ (k : ℝ) < v 2 := by
  have hu : (Recipe.component exClient none).HasClock ⟨"A", none, "u"⟩ 2 :=
    ⟨exClient, List.mem_singleton.2 rfl, rfl, by decide⟩
  rw [exGoal, StateExpr.SatClocks, allClocks_iff]
  constructor
  · intro h
    have := h _ (List.mem_cons_of_mem _ (List.mem_singleton.2 rfl))
    rw [StateExpr.SatClocks] at this
    obtain ⟨x, y, hx, hy, hr⟩ := this
    cases hx with
    | clock hi =>
      cases hy
      rw [hasClock_unique (by decide) hi hu] at hr
      exact hr
  · intro h e he
    rcases List.mem_cons.1 he with rfl | he
    · rw [StateExpr.SatClocks]; trivial
    · rw [List.mem_singleton.1 he, StateExpr.SatClocks]
      exact ⟨_, _, .clock hu, .number k, h⟩

def reachQueries (k : Int) : QueryEnv FedD := { plainQueries false with zoneBounds := fun _ _ => boundOf 2 k }

theorem reachQueries_fair (k : Int) : (reachQueries k).Fair :=
  let h := plainQueries_fair (Z := FedD) false
  ⟨h.compiled, h.acts, h.checks, h.outs, h.ins⟩

theorem exOne_searchable : (Recipe.component exClient none).Searchable 2 :=
  ⟨fun c hc => by rw [List.mem_singleton.1 hc]; exact ⟨exClient_reducible3, exClient_agree⟩⟩

theorem exClient_deadlines : exClient.Deadlines 3 := by
  intro l hl v d hv hd h
  rw [List.mem_singleton.1 hl] at h ⊢
  obtain ⟨a, b, h1, h2, h3⟩ := h
  refine ⟨v 1, b, rfl, h2, ?_⟩
  have : a = v 1 + d := by
    cases h1
    simp [delay]
  rw [this] at h3
  linarith

theorem exGoal_bounds (k : Int) (z : FedD 2)
    (hz : ∀ v, v ∈ den z ↔ Valid (2 + 1) v ∧ (exGoal k).SatClocks (.component exClient none) v) :
    ((reachQueries k).zoneBounds 2 z).Covers (2 + 1) (den z) := by
  intro v w hv hw he hm
  rw [hz, exGoal_clocks] at hm ⊢
  refine ⟨hw, ?_⟩
  rcases he 2 with he | he
  · rw [← he]; exact hm.2
  · exact (he k rfl).2

/-- Non-vacuity: the query `reachability: A -> A.L0 && A.u > 4` is answered with a path, and there is such a state; with
`A.u > 5` it is answered with no, and there is none. -/
example : (∃ l v, sysAlone.ts.Reach l v ∧ (Recipe.component exClient none).Shape l.id ∧ (exGoal 4).Sat (.component exClient none) l.id v) ∧
    ¬ ∃ l v, sysAlone.ts.Reach l v ∧ (Recipe.component exClient none).Shape l.id ∧ (exGoal 5).Sat (.component exClient none) l.id v := by
  have key := fun k d' p => C64_reachability_partial dim_fedD (reachQueries k) (reachQueries_fair k) loadTwo loadTwo_numbered
    (.component "A" none) _ 2 none rfl exOne_searchable
    (fun c hc => by rw [List.mem_singleton.1 hc]; exact ⟨Component.plain_of_plainB (by decide), exClient_deadlines⟩)
    (exGoal k) (exGoal_boxed k).plain (exGoal_bounds k) sysAlone ⟨envK _, 0, 1, envK_perm, rfl⟩ d' p
  constructor
  · obtain ⟨p, hp, h⟩ := reachabilityAnswer_eq (d := 2) (b := true)
      (x := (reachQueries 4).run loadTwo (.reachability (.component "A" none) none (exGoal 4))) (by decide +kernel)
    exact (key 4 2 p hp).1 h
  · obtain ⟨p, hp, h⟩ := reachabilityAnswer_eq (d := 2) (b := false)
      (x := (reachQueries 5).run loadTwo (.reachability (.component "A" none) none (exGoal 5))) (by decide +kernel)
    exact fun hc => by rw [(key 5 2 p hp).2 hc] at h; cases h

/-! A quotient: `B \\ A` -/

/-- `A` with its clocks numbered after that of `B` -/
def exClient2 : Component := { exClient with decls := ⟨[], [("x", 2), ("u", 3)]⟩ }

def recOver : Recipe := .quotient (.component (exServer 1) none) (.component exClient2 none) 4

def overQueries (k : Int) : QueryEnv FedD :=
  { plainQueries false with
    zoneBounds := fun _ _ => boundOf 3 k
    compiled := fun d => { envK (FedD d) with checks := fun _ => ⟨fun _ => ["out"], fun _ => [], fun _ => ["out"]⟩ } }

theorem overQueries_fair (k : Int) : (overQueries k).Fair :=
  ⟨fun _ => ⟨envK_perm, envK_perm, envK_perm, envK_perm⟩, fun _ s => mem_own s, fun _ s => ⟨ownOrders_fair s, ownOrders_fair s⟩,
    fun _ _ _ => Iff.rfl, fun _ _ _ => Iff.rfl⟩

theorem exClient2_agree : exClient2.UpdatesAgree := by
  intro e he us hus
  rw [List.mem_singleton.1 he] at hus
  cases hus
  decide

theorem recOver_searchable : recOver.Searchable 4 := by
  have kx : IsClock exClient2.decls (.var "x") 2 := .inr ⟨"x", rfl, by decide⟩
  have ky : IsClock (exServer 1).decls (.var "y") 1 := .inr ⟨"y", rfl, by decide⟩
  refine ⟨fun c hc => ?_⟩
  simp only [recOver, Recipe.components, List.mem_append, List.mem_cons, List.not_mem_nil, or_false] at hc
  rcases hc with rfl | rfl
  · refine ⟨⟨⟨Component.ok_of_okB (by decide), ?_, ?_, by decide +kernel, by decide +kernel, by decide +kernel⟩, ⟨?_, ?_⟩,
      by decide⟩, ?_⟩
    pick_goal 5
    · intro e he us hus
      rw [List.mem_singleton.1 he] at hus
      cases hus
      decide
    all_goals (
      intro e he g hg
      rw [List.mem_singleton.1 he] at hg
      cases hg)
    · exact .posConst (.chain (.clock ky)) rfl
    all_goals simp [BoolE.NamesOnly, Arith.NamesOnly]
  · refine ⟨⟨⟨Component.ok_of_okB (by decide), ?_, ?_, by decide +kernel, by decide +kernel, by decide +kernel⟩, ⟨?_, ?_⟩,
      by decide⟩, exClient2_agree⟩ <;> (
      intro e he g hg
      rw [List.mem_singleton.1 he] at hg
      cases hg)
    · exact .posConst (.chain (.clock kx)) rfl
    · exact .posConst (.chain (.clock kx)) rfl
    all_goals simp [BoolE.NamesOnly, Arith.NamesOnly]

theorem recOver_plain : ∀ c ∈ recOver.components, c.Plain ∧ c.Deadlines (4 + 1) := by
  intro c hc
  simp only [recOver, Recipe.components, List.mem_append, List.mem_cons, List.not_mem_nil, or_false] at hc
  rcases hc with rfl | rfl
  · refine ⟨Component.plain_of_plainB (by decide), fun l hl v d hv hd h => ?_⟩
    rw [List.mem_singleton.1 hl]
    trivial
  · refine ⟨Component.plain_of_plainB (by decide), fun l hl v d hv hd h => ?_⟩
    rw [List.mem_singleton.1 hl] at h ⊢
    obtain ⟨a, b, h1, h2, h3⟩ := h
    refine ⟨v 2, b, rfl, h2, ?_⟩
    have : a = v 2 + d := by
      cases h1
      simp [delay]
    rw [this] at h3
    linarith

theorem overGoal_plain (k : Int) : (exGoal k).Boxed recOver := by
  refine .and fun e he => ?_
  rcases List.mem_cons.1 he with rfl | he
  · exact .location ⟨exClient2, List.mem_cons_of_mem _ (List.mem_singleton.2 rfl), rfl⟩
  · rw [List.mem_singleton.1 he]; exact .cmp _ _ _

theorem overGoal_bounds (k : Int) (z : FedD 4)
    (hz : ∀ v, v ∈ den z ↔ Valid (4 + 1) v ∧ (exGoal k).SatClocks recOver v) :
    ((overQueries k).zoneBounds 4 z).Covers (4 + 1) (den z) := by
  have hu : recOver.HasClock ⟨"A", none, "u"⟩ 3 :=
    ⟨exClient2, List.mem_cons_of_mem _ (List.mem_singleton.2 rfl), rfl, by decide⟩
  have key : ∀ v : Val, (exGoal k).SatClocks recOver v ↔ (k : ℝ) < v 3 := by
    intro v
    rw [exGoal, StateExpr.SatClocks, allClocks_iff]
    constructor
    · intro h
      have := h _ (List.mem_cons_of_mem _ (List.mem_singleton.2 rfl))
      rw [StateExpr.SatClocks] at this
      obtain ⟨x, y, hx, hy, hr⟩ := this
      cases hx with
      | clock hi =>
        cases hy
        rw [hasClock_unique (by decide) hi hu] at hr
        exact hr
    · intro h e he
      rcases List.mem_cons.1 he with rfl | he
      · rw [StateExpr.SatClocks]; trivial
      · rw [List.mem_singleton.1 he, StateExpr.SatClocks]
        exact ⟨_, _, .clock hu, .number k, h⟩
  intro v w hv hw he hm
  rw [hz, key] at hm ⊢
  refine ⟨hw, ?_⟩
  rcases he 3 with he | he
  · rw [← he]; exact hm.2
  · exact (he k rfl).2

def sysOver : Sys (FedD 4) := (getOk (recOver.compile ((overQueries 5).compiled 4) 0) (by decide +kernel)).1

/-- Non-vacuity with a quotient: in `B \\ A` the component `A` can be in `L0` with `u > 5`, though its invariant forbids this
in `A` alone, and the query `reachability: B \\ A -> A.L0 && A.u > 5` says so. -/
example : ∃ l v, sysOver.ts.Reach l v ∧ recOver.Shape l.id ∧ (exGoal 5).Sat recOver l.id v := by
  obtain ⟨p, hp, h⟩ := reachabilityAnswer_eq (d := 4) (b := true)
    (x := (overQueries 5).run loadTwo (.reachability (.quotient (.component "B" none) (.component "A" none)) none (exGoal 5)))
    (by decide +kernel)
  exact (C64_reachability_partial dim_fedD (overQueries 5) (overQueries_fair 5) loadTwo loadTwo_numbered
    _ recOver 4 (some 4) rfl recOver_searchable recOver_plain (exGoal 5) (overGoal_plain 5).plain (overGoal_bounds 5) sysOver
    ⟨(overQueries 5).compiled 4, 0, 2, envK_perm, rfl⟩ 4 p hp).1 h

/-- An interval looks the same from some number on. -/
theorem interval_bound {S : Set ℝ} (h : S.OrdConnected) : ∃ m : Int, ∀ x y : ℝ, (m : ℝ) < x → (m : ℝ) < y → x ∈ S → y ∈ S := by
  by_cases hb : ∃ u : ℝ, ∀ x ∈ S, x ≤ u
  · obtain ⟨u, hu⟩ := hb
    exact ⟨⌈u⌉, fun x y hx _ hm => absurd (hu x hm) (not_le.2 (lt_of_le_of_lt (Int.le_ceil u) hx))⟩
  · push Not at hb
    obtain ⟨a, ha, _⟩ := hb 0
    refine ⟨⌈a⌉, fun x y _ hy _ => ?_⟩
    obtain ⟨b, hb', hyb⟩ := hb y
    exact h.out ha hb' ⟨le_of_lt (lt_of_le_of_lt (Int.le_ceil a) hy), le_of_lt hyb⟩

/-- Non-vacuity of the assumption on the bounds of zones. -/
theorem exists_boxBounds {F : Type} [ZoneLib F] : ∃ zoneBounds : F → Bounds, BoxBounds zoneBounds := by
  classical
  refine ⟨fun z => if h : ∃ b : Bounds, b.Covers (dim F) (den z) then h.choose else Bounds.new, fun z hz => ?_⟩
  have h : ∃ b : Bounds, b.Covers (dim F) (den z) := by
    obtain ⟨I, hI, hz⟩ := hz
    choose m hm using fun i => interval_bound (hI i)
    refine ⟨fun i => some (m i), fun v w hv hw he h => ?_⟩
    rw [hz] at h ⊢
    refine ⟨hw, fun i hi => ?_⟩
    rcases he i with he | he
    · rw [← he]; exact h.2 i hi
    · exact hm i _ _ (he _ rfl).1 (he _ rfl).2 (h.2 i hi)
  dsimp only
  rw [dif_pos h]
  exact h.choose_spec

/-- Non-vacuity with a start state, `A.L0 && A.u > 0 -> A.L0 && A.u > 4`. -/
example : ∃ s : Sys (FedD 2), (Recipe.component exClient none).Means s ∧ ∃ l₀ v₀ l v, s.IsLoc l₀ ∧ Valid 3 v₀ ∧
    (exGoal 0).Sat (.component exClient none) l₀.id v₀ ∧ v₀ ∈ InvSet l₀ ∧ s.ts.RunFrom l₀ v₀ l v ∧
    (exGoal 4).Sat (.component exClient none) l.id v := by
  obtain ⟨p, hp, h⟩ := reachabilityAnswer_eq (d := 2) (b := true)
    (x := (reachQueries 4).run loadTwo (.reachability (.component "A" none) (some (exGoal 0)) (exGoal 4))) (by decide +kernel)
  obtain ⟨s, h1, h2⟩ := C64_reachability_from_partial dim_fedD (reachQueries 4) (reachQueries_fair 4) loadTwo loadTwo_numbered
    (.component "A" none) (.component exClient none) 2 none rfl exOne_searchable
    (fun c hc => by rw [List.mem_singleton.1 hc]; exact ⟨Component.plain_of_plainB (by decide), exClient_deadlines⟩)
    (exGoal 0) (exGoal 4) (exGoal_boxed 0).plain (fun v t hv ht h => by
      rw [exGoal_clocks] at h ⊢
      simp only [delay, Int.cast_zero] at h ⊢
      norm_num
      linarith) (exGoal_boxed 4).plain (exGoal_bounds 4) 2 p hp
  obtain ⟨l₀, v₀, l, v, a1, a2, _, a3, a4, a5, _, a6⟩ := h2.1 h
  exact ⟨s, h1, l₀, v₀, l, v, a1, a2, a3, a4, a5, a6⟩

/-! ## Goals that compare clocks

The search enlarges zones up to the constants of the system and the bounds of the goal's zone.  A goal about the difference
of two clocks says nothing about either of them alone. -/

/-- In `L1` the clock `x` is five ahead of `y`. -/
def exLag : Component := ⟨"A", ⟨[], [("x", 1), ("y", 2)]⟩,
  [⟨"L0", none, .initial, "NORMAL"⟩, ⟨"L1", none, .normal, "NORMAL"⟩],
  [⟨"e", "L0", "L1", .input, some (.eq (.var "y") (.int 5)), some [⟨"y", .int 0⟩], "a"⟩]⟩

def loadLag : String → Res Component := fun n => if n = "A" then .ok exLag else .error (.err "unknown")

/-- `A.L1 && A.x - A.y <= 3` -/
def lagGoal : StateExpr :=
  .and [.location ⟨"A", none, "L1"⟩, .cmp .leq (.difference (.clock ⟨"A", none, "x"⟩) (.clock ⟨"A", none, "y"⟩)) (.number 3)]

def lagQueries (b : Bounds) : QueryEnv FedD := { plainQueries false with zoneBounds := fun _ _ => b }

def sysLag : Sys (FedD 2) := .comp (getOk (CompComp.compile id exLag 0) (by decide +kernel))

theorem sysLag_reach {l : LocTree (FedD 2)} {v : Val} (h : sysLag.ts.Reach l v) :
    (l = .leaf (.simple "L0") none .initial ∧ v 1 = v 2) ∨ (l = .leaf (.simple "L1") none .normal ∧ v 1 = v 2 + 5) := by
  let l0 : LocTree (FedD 2) := .leaf (.simple "L0") none .initial
  let l1 : LocTree (FedD 2) := .leaf (.simple "L1") none .normal
  let g : FedD 2 := constrain (constrain univ 2 0 (.LE 5)) 0 2 (.LE (-5))
  let e : Transition (FedD 2) := ⟨.simple "e", g, l1, [⟨2, 0⟩]⟩
  induction h with
  | init h _ =>
    have : sysLag.ts.initialLoc = .ok (some l0) := rfl
    rw [this] at h
    cases h
    exact .inl ⟨rfl, rfl⟩
  | @delay l v d h hd ih =>
    have h0 := hd.1
    have hdim : dim (FedD 2) = 3 := rfl
    simp only [delay, hdim]; norm_num
    rcases ih with ih | ⟨h1, h2⟩
    · exact .inl ih
    · exact .inr ⟨h1, by linarith⟩
  | @act l v a l' v' hr hact ih =>
    obtain ⟨ha, trans, htr, t, ht, hc, rfl, rfl⟩ := hact
    have ha : a = "a" := by
      have h1 : sysLag.ts.inputs = ["a"] := by decide +kernel
      have h2 : sysLag.ts.outputs = [] := by decide +kernel
      unfold TS.hasAction at ha
      rw [h1, h2] at ha
      simpa using ha
    subst ha
    rcases ih with ⟨rfl, ih⟩ | ⟨rfl, ih⟩
    · have : sysLag.ts.next l0 "a" = .ok [e] := rfl
      rw [this] at htr
      cases htr
      cases List.mem_singleton.1 ht
      have hg : v ∈ den g := hc.1
      rw [den_constrain _ _ _ _ (by decide) (by decide), den_constrain _ _ _ _ (by decide) (by decide)] at hg
      have h1 := hg.1.2
      have h2 := hg.2
      have h0 := (den_valid hg.1.1).1
      simp only [Ineq.Sat] at h1 h2
      norm_num at h1 h2
      refine .inr ⟨rfl, ?_⟩
      simp only [e, runUpdates, assign]
      norm_num
      linarith
    · have : sysLag.ts.next l1 "a" = .ok [] := rfl
      rw [this] at htr
      cases htr
      cases ht

/-- **C64**, violated for goals that compare clocks: the query `reachability: A -> A.L1 && A.x - A.y <= 3` is answered with
a path although in `L1` the difference is always five.  Each clock alone is not restricted by the goal, so that its zone has no
bounds for the clocks (none, or zero).  All other conditions of `C64_reachability_partial` are met. -/
theorem C64_violated_goal :
    (∀ b, b = Bounds.new ∨ b = (fun _ => some 0) → ∃ p, (lagQueries b).run loadLag (.reachability (.component "A" none) none lagGoal) =
      .ok (.reachability 2 (some p))) ∧
    (Recipe.component exLag none).Searchable 2 ∧ exLag.Plain ∧ exLag.Deadlines 3 ∧ lagGoal.Plain (.component exLag none) ∧
    (Recipe.component exLag none).Means sysLag ∧
    ¬ ∃ l v, sysLag.ts.Reach l v ∧ lagGoal.Sat (.component exLag none) l.id v := by
  refine ⟨?_, ?_, Component.plain_of_plainB (by decide), ?_, ?_, ⟨envK _, 0, 1, envK_perm, rfl⟩, ?_⟩
  · rintro b (rfl | rfl)
    · obtain ⟨p, hp, h⟩ := reachabilityAnswer_eq (d := 2) (b := true)
        (x := (lagQueries Bounds.new).run loadLag (.reachability (.component "A" none) none lagGoal)) (by decide +kernel)
      obtain ⟨ds, rfl⟩ := Option.isSome_iff_exists.1 h
      exact ⟨ds, hp⟩
    · obtain ⟨p, hp, h⟩ := reachabilityAnswer_eq (d := 2) (b := true)
        (x := (lagQueries (fun _ => some 0)).run loadLag (.reachability (.component "A" none) none lagGoal)) (by decide +kernel)
      obtain ⟨ds, rfl⟩ := Option.isSome_iff_exists.1 h
      exact ⟨ds, hp⟩
  · refine ⟨fun c hc => ?_⟩
    rw [List.mem_singleton.1 hc]
    have kx : IsClock exLag.decls (.var "y") 2 := .inr ⟨"y", rfl, by decide⟩
    refine ⟨⟨⟨Component.ok_of_okB (by decide), ?_, ?_, by decide +kernel, by decide +kernel, by decide +kernel⟩, ⟨?_, ?_⟩,
      by decide⟩, ?_⟩
    · intro e he g hg
      rw [List.mem_singleton.1 he] at hg
      cases hg
      exact .posConst (.chain (.clock kx)) rfl
    · intro l hl g hg
      rcases List.mem_cons.1 hl with rfl | hl
      · cases hg
      · rw [List.mem_singleton.1 hl] at hg; cases hg
    · intro e he g hg
      rw [List.mem_singleton.1 he] at hg
      cases hg
      simp [BoolE.NamesOnly, Arith.NamesOnly]
    · intro l hl g hg
      rcases List.mem_cons.1 hl with rfl | hl
      · cases hg
      · rw [List.mem_singleton.1 hl] at hg; cases hg
    · intro e he us hus
      rw [List.mem_singleton.1 he] at hus
      cases hus
      decide
  · intro l hl v d _ _ _
    rcases List.mem_cons.1 hl with rfl | hl
    · trivial
    · rw [List.mem_singleton.1 hl]; trivial
  · refine .and fun e he => ?_
    rcases List.mem_cons.1 he with rfl | he
    · exact .location ⟨exLag, List.mem_singleton.2 rfl, rfl⟩
    · rw [List.mem_singleton.1 he]
      refine .cmp fun a b ha hb => ?_
      cases ha
      cases hb
      exact .diffConst (.posSub (.chain (.clock (.inl rfl))) (.inl rfl)) rfl
  · rintro ⟨l, v, hr, hs⟩
    rw [lagGoal, StateExpr.Sat, satAll_iff] at hs
    have h1 := hs _ List.mem_cons_self
    have h2 := hs _ (List.mem_cons_of_mem _ (List.mem_singleton.2 rfl))
    rw [StateExpr.Sat.eq_def] at h1 h2
    obtain ⟨x, y, hx, hy, hle⟩ := h2
    have cx : (Recipe.component exLag none).HasClock ⟨"A", none, "x"⟩ 1 := ⟨exLag, List.mem_singleton.2 rfl, rfl, by decide⟩
    have cy : (Recipe.component exLag none).HasClock ⟨"A", none, "y"⟩ 2 := ⟨exLag, List.mem_singleton.2 rfl, rfl, by decide⟩
    cases hy
    cases hx with
    | difference hx hy =>
      cases hx with
      | clock hx =>
        cases hy with
        | clock hy =>
          rw [hasClock_unique (by decide) hx cx, hasClock_unique (by decide) hy cy] at hle
          have hle : v 1 - v 2 ≤ ((3 : Int) : ℝ) := hle
          norm_num at hle
          rcases sysLag_reach hr with ⟨rfl, _⟩ | ⟨_, h⟩
          · have h1 := h1.1
            have key : ∀ (r : Recipe) (l : LocId) c i n, r.At l c i n → r = .component exLag none → l = .simple n := by
              intro r l c i n h e
              cases h <;> cases e
              rfl
            have := key _ _ _ _ _ h1 rfl
            simp [LocTree.id] at this
          · linarith

end Reveaal
