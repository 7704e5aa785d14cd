import Verif.Spec.StateQuery
import Verif.Lemmas.Recipe
import Verif.Props.C01
import Verif.Props.C35
import Verif.Lemmas.Run

/-! # C46: states in reachability queries -/

namespace Reveaal
open ZoneLib

/-! ## Locations -/

mutual

theorem getLocations_spec : ∀ (e : StateExpr) (vs : List CompVar), e.getLocations = .ok vs →
    ∀ x, x ∈ vs ↔ e.Names x
  | .cmp _ _ _, vs, h, x | .bool _, vs, h, x => by
    rw [StateExpr.getLocations] at h
    cases h
    exact ⟨fun h => (by cases h), fun h => by cases h⟩
  | .and es, vs, h, x => by
    rw [StateExpr.getLocations] at h
    rw [getAllLocations_spec es vs h x]
    exact ⟨fun ⟨e, he, hn⟩ => .and he hn, fun h => by cases h with | and he hn => exact ⟨_, he, hn⟩⟩
  | .or es, vs, h, x => by
    rw [StateExpr.getLocations] at h
    obtain ⟨res, h1, h⟩ := bind_ok h
    split at h
    · cases h
    cases h
    rw [getAllLocations_spec es _ h1 x]
    exact ⟨fun ⟨e, he, hn⟩ => .or he hn, fun h => by cases h with | or he hn => exact ⟨_, he, hn⟩⟩
  | .location v, vs, h, x => by
    rw [StateExpr.getLocations] at h
    cases h
    rw [List.mem_singleton]
    exact ⟨fun h => by rw [h]; exact .location v, fun h => by cases h; rfl⟩
  | .not e, vs, h, x => by
    rw [StateExpr.getLocations] at h
    obtain ⟨res, h1, h⟩ := bind_ok h
    split at h
    · next hr =>
      cases h
      have hr : res = [] := by cases res with | nil => rfl | cons a l => cases hr
      have := getLocations_spec e _ h1 x
      rw [hr] at this
      refine ⟨fun h => (by cases h), fun h => ?_⟩
      cases h with
      | not hn => exact this.2 hn
    · cases h

theorem getAllLocations_spec : ∀ (es : List StateExpr) (vs : List CompVar),
    StateExpr.getAllLocations es = .ok vs → ∀ x, x ∈ vs ↔ ∃ e ∈ es, e.Names x
  | [], vs, h, x => by
    rw [StateExpr.getAllLocations] at h
    cases h
    simp
  | e :: es, vs, h, x => by
    rw [StateExpr.getAllLocations] at h
    obtain ⟨v1, h1, h⟩ := bind_ok h
    obtain ⟨v2, h2, h⟩ := bind_ok h
    cases h
    rw [List.mem_append, getLocations_spec e _ h1 x, getAllLocations_spec es _ h2 x]
    simp

end

theorem mem_dedupAdjacent {α : Type} [DecidableEq α] : ∀ (l : List α) (x : α), x ∈ dedupAdjacent l ↔ x ∈ l
  | [], _ | [_], _ => Iff.rfl
  | a :: b :: l, x => by
    unfold dedupAdjacent
    split
    · next h => rw [mem_dedupAdjacent (b :: l) x, h]; simp
    · rw [List.mem_cons, mem_dedupAdjacent (b :: l) x, List.mem_cons (l := b :: l)]

theorem ambiguousLocations_spec {vs : List CompVar} (h : ambiguousLocations vs = false) :
    ∀ v ∈ vs, ∀ w ∈ vs, v.component = w.component → v.specialId = w.specialId → v = w := by
  intro v hv w hw h1 h2
  by_contra hne
  have h3 := List.any_eq_false.1 h v hv
  rw [Bool.not_eq_true] at h3
  have := List.any_eq_false.1 h3 w hw
  simp [hne, h1, h2] at this

theorem ambiguousComponents_spec {cs : List (Component × Option String)} (h : ambiguousComponents cs = false) :
    ∀ c ∈ cs, ∀ d ∈ cs, c.1.name = d.1.name → c.2 = d.2 → c = d := by
  intro c hc d hd h1 h2
  by_contra hne
  have h3 := List.any_eq_false.1 h c hc
  rw [Bool.not_eq_true] at h3
  have := List.any_eq_false.1 h3 d hd
  simp [hne, h1, h2] at this

section
variable {F : Type} [ZoneLib F]

/-- What an accepted state consists of. -/
theorem getState_parts {e : StateExpr} {r : Recipe} {s : Sys F} {st : State F} (h : getState e r s = .ok st) :
    ambiguousComponents r.namedComponents = false ∧ ∃ vs g, (∀ x, x ∈ vs ↔ e.Names x) ∧
      ambiguousLocations vs = false ∧ r.locationTree vs s = .ok st.loc ∧ e.toBool r.namedComponents = .ok g ∧
      applyConstraints ⟨[], []⟩ g univ = .ok st.zone := by
  unfold getState at h
  split at h
  · cases h
  next h1 =>
  rw [Bool.not_eq_true] at h1
  obtain ⟨vs, h2, h⟩ := bind_ok h
  dsimp only at h
  split at h
  · cases h
  next h3 =>
  rw [Bool.not_eq_true] at h3
  obtain ⟨t, h4, h⟩ := bind_ok h
  obtain ⟨g, h5, h⟩ := bind_ok h
  obtain ⟨z, h6, h⟩ := bind_ok h
  cases h
  exact ⟨h1, dedupAdjacent vs, g, fun x => (mem_dedupAdjacent vs x).trans (getLocations_spec e vs h2 x), h3, h4, h5, h6⟩

/-- **C46**, locations: a state is accepted only if it assigns at most one location to every component. -/
theorem C46_one_location (e : StateExpr) (r : Recipe) (s : Sys F) (st : State F) (h : getState e r s = .ok st)
    (x y : CompVar) (hx : e.Names x) (hy : e.Names y) (hc : x.component = y.component)
    (hi : x.specialId = y.specialId) : x.name = y.name := by
  obtain ⟨_, vs, g, h1, h2, _⟩ := getState_parts h
  rw [ambiguousLocations_spec h2 x ((h1 x).2 hx) y ((h1 y).2 hy) hc hi]

/-! ## The location tree -/

theorem leaf_spec {vs : List CompVar} {c : Component} {id : Option String} {env : CompileEnv F} {i j : Nat}
    {s : Sys F} {t : LocTree F} (he : env.Perm) (ho : (Recipe.component c id).Ok (dim F))
    (hs : (Recipe.component c id).compile env i = .ok (s, j))
    (h : (Recipe.component c id).locationTree vs s = .ok t) :
    s.IsPattern t ∧ ((t = .anyLoc ∧ ∀ v ∈ vs, v.component = c.name → v.specialId ≠ id) ∨
      ∃ v ∈ vs, v.component = c.name ∧ v.specialId = id ∧ t.id = .simple v.name ∧ s.IsLoc t) := by
  obtain ⟨x, h1, hs⟩ := bind_ok hs
  cases hs
  have wf := compileWith_wf (ho.1 c (List.mem_singleton.2 rfl)) (he i) h1
  rw [Recipe.locationTree] at h
  split at h
  · next hf =>
    cases h
    refine ⟨.inl rfl, .inl ⟨rfl, fun v hv h1 h2 => ?_⟩⟩
    have := List.find?_eq_none.1 hf v hv
    simp [h1, h2] at this
  · next v hf =>
    obtain ⟨o, h2, h⟩ := bind_ok h
    cases o with
    | none => cases h
    | some l =>
      cases h
      have h2 : x.locations.lookup (.simple v.name) = some t := by
        unfold Sys.getLocation at h2
        exact Except.ok.inj h2
      have hm := lookup_mem h2
      have hv := List.find?_some hf
      simp only [Bool.and_eq_true, decide_eq_true_eq] at hv
      have hl : (Sys.comp x).IsLoc t := ⟨_, hm, rfl⟩
      exact ⟨.inr hl, .inr ⟨v, List.mem_of_find?_eq_some hf, hv.1, hv.2, wf.ids _ hm, hl⟩⟩

/-- The tree of a query state is a pattern of the system, and it matches the locations in which all named
components are where the query says. -/
theorem locationTree_spec {vs : List CompVar}
    (hu : ∀ v ∈ vs, ∀ w ∈ vs, v.component = w.component → v.specialId = w.specialId → v = w) :
    ∀ {r : Recipe} {env : CompileEnv F} {i j : Nat} {s : Sys F} {t : LocTree F}, env.Perm → r.Ok (dim F) →
    r.compile env i = .ok (s, j) → r.locationTree vs s = .ok t →
    s.IsPattern t ∧ (t.id.isPartial = false → s.IsLoc t) ∧ ∀ l, r.Shape l →
      (t.id.Matches l ↔ ∀ c i n, r.At l c i n → ∀ v ∈ vs, v.component = c → v.specialId = i → n = v.name)
  | .composition l r, env, i, j, s, t, he, ho, hs, h => by
    obtain ⟨hl, hr⟩ := Recipe.Ok.split (p := l.quotientClocks) (q := r.quotientClocks) ho
    obtain ⟨⟨sl, k⟩, h1, hs⟩ := bind_ok hs
    obtain ⟨⟨sr, k'⟩, h2, hs⟩ := bind_ok hs
    obtain ⟨s', h3, hs⟩ := bind_ok hs
    cases hs
    obtain ⟨_, rfl⟩ := Sys.newComposition_eq h3
    rw [Recipe.locationTree, Sys.children, ok_bind] at h
    obtain ⟨tl, h4, h⟩ := bind_ok h
    obtain ⟨tr, h5, h⟩ := bind_ok h
    obtain ⟨p1, l1, m1⟩ := locationTree_spec hu (env := env.sub false) he hl h1 h4
    obtain ⟨p2, l2, m2⟩ := locationTree_spec hu (env := env.sub true) he hr h2 h5
    refine ⟨⟨tl, tr, p1, p2, h⟩, fun hp => ?_, fun x hx => ?_⟩
    · have h' := h
      cases h
      replace hp : (tl.id.isPartial || tr.id.isPartial) = false := hp
      rw [Bool.or_eq_false_iff] at hp
      exact ⟨tl, tr, l1 hp.1, l2 hp.2, h'⟩
    · cases h
      cases hx with
      | composition hx hx' =>
        change LocId.Matches (.composition tl.id tr.id) _ ↔ _
        rw [matches_comp]
        rw [m1 _ hx, m2 _ hx']
        constructor
        · rintro ⟨ha, hb⟩ c i n hat
          cases hat with
          | compositionL h => exact ha c i n h
          | compositionR h => exact hb c i n h
        · exact fun h => ⟨fun c i n ha => h c i n (.compositionL ha), fun c i n ha => h c i n (.compositionR ha)⟩
  | .conjunction l r, env, i, j, s, t, he, ho, hs, h => by
    obtain ⟨hl, hr⟩ := Recipe.Ok.split (p := l.quotientClocks) (q := r.quotientClocks) ho
    obtain ⟨⟨sl, k⟩, h1, hs⟩ := bind_ok hs
    obtain ⟨⟨sr, k'⟩, h2, hs⟩ := bind_ok hs
    obtain ⟨s', h3, hs⟩ := bind_ok hs
    cases hs
    obtain ⟨_, _, rfl⟩ := Sys.newConjunction_eq (newConjunction_unchecked h3)
    rw [Recipe.locationTree, Sys.children, ok_bind] at h
    obtain ⟨tl, h4, h⟩ := bind_ok h
    obtain ⟨tr, h5, h⟩ := bind_ok h
    obtain ⟨p1, l1, m1⟩ := locationTree_spec hu (env := env.sub false) he hl h1 h4
    obtain ⟨p2, l2, m2⟩ := locationTree_spec hu (env := env.sub true) he hr h2 h5
    refine ⟨⟨tl, tr, p1, p2, h⟩, fun hp => ?_, fun x hx => ?_⟩
    · have h' := h
      cases h
      replace hp : (tl.id.isPartial || tr.id.isPartial) = false := hp
      rw [Bool.or_eq_false_iff] at hp
      exact ⟨tl, tr, l1 hp.1, l2 hp.2, h'⟩
    · cases h
      cases hx with
      | conjunction hx hx' =>
        change LocId.Matches (.conjunction tl.id tr.id) _ ↔ _
        rw [matches_conj]
        rw [m1 _ hx, m2 _ hx']
        constructor
        · rintro ⟨ha, hb⟩ c i n hat
          cases hat with
          | conjunctionL h => exact ha c i n h
          | conjunctionR h => exact hb c i n h
        · exact fun h => ⟨fun c i n ha => h c i n (.conjunctionL ha), fun c i n ha => h c i n (.conjunctionR ha)⟩
  | .quotient l r q, env, i, j, s, t, he, ho, hs, h => by
    obtain ⟨hl, hr, _, _⟩ := Recipe.Ok.quotient ho
    obtain ⟨⟨sl, k⟩, h1, hs⟩ := bind_ok hs
    obtain ⟨⟨sr, k'⟩, h2, hs⟩ := bind_ok hs
    obtain ⟨s', h3, hs⟩ := bind_ok hs
    cases hs
    obtain ⟨_, rfl⟩ := Sys.newQuotient_eq (newQuotient_unchecked h3)
    rw [Recipe.locationTree, Sys.children, ok_bind] at h
    obtain ⟨tl, h4, h⟩ := bind_ok h
    obtain ⟨tr, h5, h⟩ := bind_ok h
    cases h
    obtain ⟨p1, l1, m1⟩ := locationTree_spec hu (env := env.sub false) he hl h1 h4
    obtain ⟨p2, l2, m2⟩ := locationTree_spec hu (env := env.sub true) he hr h2 h5
    refine ⟨⟨tl, tr, p1, p2, rfl⟩, fun hp => ?_, fun x hx => ?_⟩
    · replace hp : (tl.id.isPartial || tr.id.isPartial) = false := hp
      rw [Bool.or_eq_false_iff] at hp
      exact .inl ⟨tl, tr, l1 hp.1, l2 hp.2, rfl⟩
    · cases hx with
      | quotient hx hx' =>
        change LocId.Matches (.quotient tl.id tr.id) _ ↔ _
        rw [matches_quot]
        rw [m1 _ hx, m2 _ hx']
        constructor
        · rintro ⟨ha, hb⟩ c i n hat
          cases hat with
          | quotientL h => exact ha c i n h
          | quotientR h => exact hb c i n h
        · exact fun h => ⟨fun c i n ha => h c i n (.quotientL ha), fun c i n ha => h c i n (.quotientR ha)⟩
  | .component c id, env, i, j, s, t, he, ho, hs, h => by
    obtain ⟨hp, hk⟩ := leaf_spec he ho hs h
    refine ⟨hp, fun hpart => ?_, fun l hl => ?_⟩
    · rcases hk with ⟨rfl, _⟩ | ⟨_, _, _, _, _, hl⟩
      · cases hpart
      · exact hl
    · cases hl with
      | component _ _ n =>
        rcases hk with ⟨rfl, hno⟩ | ⟨v, hv, h1, h2, h3, _⟩
        · refine ⟨fun _ c' i' n' ha w hw h1 h2 => ?_, fun _ => .any _⟩
          cases ha
          exact absurd h2 (hno w hw h1)
        · rw [h3]
          constructor
          · intro hm c' i' n' ha w hw h4 h5
            cases ha
            rw [hu w hw v hv (h4.trans h1.symm) (h5.trans h2.symm)]
            cases hm; rfl
          · intro hh
            rw [hh _ _ _ (.component c id n) v hv h1 h2]
            exact .simple _

/-- The locations of a compiled system, apart from the special ones of quotients, have the shape of the recipe. -/
theorem exists_at {r : Recipe} {l : LocId} (hs : r.Shape l) {c : Component} {i : Option String}
    (hc : (c, i) ∈ r.namedComponents) : ∃ n, r.At l c.name i n := by
  induction hs with
  | component c' i' n =>
    cases List.mem_singleton.1 hc
    exact ⟨n, .component _ _ _⟩
  | composition _ _ ih1 ih2 =>
    rcases List.mem_append.1 hc with h | h
    · obtain ⟨n, hn⟩ := ih1 h; exact ⟨n, .compositionL hn⟩
    · obtain ⟨n, hn⟩ := ih2 h; exact ⟨n, .compositionR hn⟩
  | conjunction _ _ ih1 ih2 =>
    rcases List.mem_append.1 hc with h | h
    · obtain ⟨n, hn⟩ := ih1 h; exact ⟨n, .conjunctionL hn⟩
    · obtain ⟨n, hn⟩ := ih2 h; exact ⟨n, .conjunctionR hn⟩
  | quotient _ _ ih1 ih2 =>
    rcases List.mem_append.1 hc with h | h
    · obtain ⟨n, hn⟩ := ih1 h; exact ⟨n, .quotientL hn⟩
    · obtain ⟨n, hn⟩ := ih2 h; exact ⟨n, .quotientR hn⟩

end

/-! ## The constraints -/

theorem toArith_spec {r : Recipe} (hamb : ambiguousComponents r.namedComponents = false) {n : Nat}
    (hd : ∀ c ∈ r.namedComponents, c.1.decls.InDim n) : ∀ (o : Operand) (a : Arith),
    o.toArith r.namedComponents = .ok a → a.InDim n ∧ ∀ (v : Val) x, value ⟨[], []⟩ v a = some x ↔ o.Value r v x
  | .number k, a, h => by
    rw [Operand.toArith] at h
    cases h
    refine ⟨trivial, fun v x => ?_⟩
    rw [value]
    exact ⟨fun h => by cases h; exact .number k, fun h => by cases h; rfl⟩
  | .clock y, a, h => by
    rw [Operand.toArith] at h
    split at h
    · cases h
    next c hf =>
    split at h
    · cases h
    next i hi =>
    cases h
    have hm := List.mem_of_find?_eq_some hf
    have hp := List.find?_some hf
    simp only [Bool.and_eq_true, decide_eq_true_eq] at hp
    refine ⟨hd c hm _ (lookup_mem hi), fun v x => ?_⟩
    rw [value]
    constructor
    · intro h
      cases h
      exact .clock ⟨c.1, by rw [← hp.2]; exact hm, hp.1, hi⟩
    · intro h
      cases h with
      | clock hc =>
        obtain ⟨c', h1, h2, h3⟩ := hc
        have := ambiguousComponents_spec hamb _ h1 _ hm (h2.trans hp.1.symm) hp.2.symm
        subst this
        have hi' : c'.decls.clocks.lookup y.name = some i := hi
        rw [h3] at hi'
        cases hi'; rfl
  | .difference l r', a, h => by
    rw [Operand.toArith] at h
    obtain ⟨x1, h1, h⟩ := bind_ok h
    obtain ⟨x2, h2, h⟩ := bind_ok h
    cases h
    obtain ⟨d1, v1⟩ := toArith_spec hamb hd l _ h1
    obtain ⟨d2, v2⟩ := toArith_spec hamb hd r' _ h2
    refine ⟨⟨d1, d2⟩, fun v x => ?_⟩
    rw [value]
    constructor
    · intro h
      obtain ⟨y, hy, h⟩ := Option.bind_eq_some_iff.1 h
      obtain ⟨z, hz, h⟩ := Option.bind_eq_some_iff.1 h
      cases h
      exact .difference ((v1 v y).1 hy) ((v2 v z).1 hz)
    · intro h
      cases h with
      | difference hy hz => rw [(v1 v _).2 hy, (v2 v _).2 hz]; rfl
  | .sum l r', a, h => by
    rw [Operand.toArith] at h
    obtain ⟨x1, h1, h⟩ := bind_ok h
    obtain ⟨x2, h2, h⟩ := bind_ok h
    cases h
    obtain ⟨d1, v1⟩ := toArith_spec hamb hd l _ h1
    obtain ⟨d2, v2⟩ := toArith_spec hamb hd r' _ h2
    refine ⟨⟨d1, d2⟩, fun v x => ?_⟩
    rw [value]
    constructor
    · intro h
      obtain ⟨y, hy, h⟩ := Option.bind_eq_some_iff.1 h
      obtain ⟨z, hz, h⟩ := Option.bind_eq_some_iff.1 h
      cases h
      exact .sum ((v1 v y).1 hy) ((v2 v z).1 hz)
    · intro h
      cases h with
      | sum hy hz => rw [(v1 v _).2 hy, (v2 v _).2 hz]; rfl

theorem satAll_iff {r : Recipe} {l : LocId} {v : Val} : ∀ {es : List StateExpr},
    StateExpr.SatAll r l v es ↔ ∀ e ∈ es, e.Sat r l v
  | [] => by simp [StateExpr.SatAll]
  | e :: es => by rw [StateExpr.SatAll, satAll_iff]; simp

theorem toBools_ok {comps : List (Component × Option String)} : ∀ {es : List StateExpr} {gs : List BoolE},
    StateExpr.toBools comps es = .ok gs → List.Forall₂ (fun e g => e.toBool comps = .ok g) es gs
  | [], gs, h => by rw [StateExpr.toBools] at h; cases h; exact .nil
  | e :: es, gs, h => by
    rw [StateExpr.toBools] at h
    obtain ⟨g, h1, h⟩ := bind_ok h
    obtain ⟨gs', h2, h⟩ := bind_ok h
    cases h
    exact .cons h1 (toBools_ok h2)

theorem foldl_and {d : Decls} {v : Val} : ∀ (gs : List BoolE) (g : BoolE),
    (Holds d v (gs.foldl .and g) ↔ ∀ x ∈ g :: gs, Holds d v x) ∧
    ((∀ x ∈ g :: gs, GoodGuard d x) → GoodGuard d (gs.foldl .and g)) ∧
    ∀ n, (∀ x ∈ g :: gs, x.InDim n) → (gs.foldl BoolE.and g).InDim n
  | [], g => by simp
  | x :: gs, g => by
    obtain ⟨h1, h2, h3⟩ := foldl_and (v := v) gs (.and g x)
    rw [List.foldl_cons]
    refine ⟨h1.trans ?_, fun h => h2 ?_, fun n h => h3 n ?_⟩
    · simp only [List.mem_cons, forall_eq_or_imp]
      exact and_assoc
    · intro y hy
      rcases List.mem_cons.1 hy with rfl | hy
      · exact ⟨h g (by simp), h x (by simp)⟩
      · exact h y (by simp [hy])
    · intro y hy
      rcases List.mem_cons.1 hy with rfl | hy
      · exact ⟨h g (by simp), h x (by simp)⟩
      · exact h y (by simp [hy])

theorem foldl_or {d : Decls} {v : Val} : ∀ (gs : List BoolE) (g : BoolE),
    (Holds d v (gs.foldl .or g) ↔ ∃ x ∈ g :: gs, Holds d v x) ∧
    ((∀ x ∈ g :: gs, GoodGuard d x) → GoodGuard d (gs.foldl .or g)) ∧
    ∀ n, (∀ x ∈ g :: gs, x.InDim n) → (gs.foldl BoolE.or g).InDim n
  | [], g => by simp
  | x :: gs, g => by
    obtain ⟨h1, h2, h3⟩ := foldl_or (v := v) gs (.or g x)
    rw [List.foldl_cons]
    refine ⟨h1.trans ?_, fun h => h2 ?_, fun n h => h3 n ?_⟩
    · simp only [List.mem_cons, exists_eq_or_imp]
      exact or_assoc
    · intro y hy
      rcases List.mem_cons.1 hy with rfl | hy
      · exact ⟨h g (by simp), h x (by simp)⟩
      · exact h y (by simp [hy])
    · intro y hy
      rcases List.mem_cons.1 hy with rfl | hy
      · exact ⟨h g (by simp), h x (by simp)⟩
      · exact h y (by simp [hy])

theorem allClocks_iff {r : Recipe} {v : Val} : ∀ {es : List StateExpr},
    StateExpr.AllClocks r v es ↔ ∀ e ∈ es, e.SatClocks r v
  | [] => by simp [StateExpr.AllClocks]
  | e :: es => by rw [StateExpr.AllClocks, allClocks_iff]; simp

theorem anyClocks_iff {r : Recipe} {v : Val} : ∀ {es : List StateExpr},
    StateExpr.AnyClocks r v es ↔ ∃ e ∈ es, e.SatClocks r v
  | [] => by simp [StateExpr.AnyClocks]
  | e :: es => by rw [StateExpr.AnyClocks, anyClocks_iff]; simp

theorem toBool_clocks {r : Recipe} (hamb : ambiguousComponents r.namedComponents = false) {n : Nat}
    (hd : ∀ c ∈ r.namedComponents, c.1.decls.InDim n) {e : StateExpr} (hp : e.Readable r) :
    ∀ {g : BoolE}, e.toBool r.namedComponents = .ok g → GoodGuard ⟨[], []⟩ g ∧ g.InDim n ∧
    ∀ v, e.SatClocks r v ↔ Holds ⟨[], []⟩ v g := by
  induction hp with
  | @cmp op a b hg =>
    intro g h
    rw [StateExpr.toBool] at h
    obtain ⟨x, h1, h⟩ := bind_ok h
    obtain ⟨y, h2, h⟩ := bind_ok h
    cases h
    obtain ⟨d1, v1⟩ := toArith_spec hamb hd a x h1
    obtain ⟨d2, v2⟩ := toArith_spec hamb hd b y h2
    have hgood := hg x y h1 h2
    refine ⟨?_, ?_, fun v => ?_⟩
    · cases op <;> exact hgood
    · cases op <;> exact ⟨d1, d2⟩
    · rw [StateExpr.SatClocks]
      have : Holds ⟨[], []⟩ v (op.toBool x y) ↔
          ∃ p q, value ⟨[], []⟩ v x = some p ∧ value ⟨[], []⟩ v y = some q ∧ op.Rel p q := by
        cases op <;> rfl
      rw [this]
      simp only [v1, v2]
  | @and es hes ih =>
    intro g h
    rw [StateExpr.toBool] at h
    obtain ⟨gs, h1, h⟩ := bind_ok h
    have hf := toBools_ok h1
    cases gs with
    | nil => cases h
    | cons g0 gs =>
      cases h
      have key : ∀ x ∈ g0 :: gs, GoodGuard ⟨[], []⟩ x ∧ x.InDim n := by
        intro x hx
        obtain ⟨e, he, hx⟩ := forall2_mem_right hf x hx
        exact ⟨(ih e he hx).1, (ih e he hx).2.1⟩
      refine ⟨(foldl_and (v := fun _ => 0) gs g0).2.1 fun x hx => (key x hx).1,
        (foldl_and (d := ⟨[], []⟩) (v := fun _ => 0) gs g0).2.2 n fun x hx => (key x hx).2, fun v => ?_⟩
      rw [StateExpr.SatClocks, allClocks_iff, (foldl_and gs g0).1]
      constructor
      · intro h x hx
        obtain ⟨e, he, hx⟩ := forall2_mem_right hf x hx
        exact ((ih e he hx).2.2 v).1 (h e he)
      · intro h1 e he
        obtain ⟨g, hgm, hg⟩ := forall2_mem_left hf _ he
        exact ((ih e he hg).2.2 v).2 (h1 g hgm)
  | @or es hes ih =>
    intro g h
    rw [StateExpr.toBool] at h
    obtain ⟨gs, h1, h⟩ := bind_ok h
    have hf := toBools_ok h1
    cases gs with
    | nil => cases h
    | cons g0 gs =>
      cases h
      have key : ∀ x ∈ g0 :: gs, GoodGuard ⟨[], []⟩ x ∧ x.InDim n := by
        intro x hx
        obtain ⟨e, he, hx⟩ := forall2_mem_right hf x hx
        exact ⟨(ih e he hx).1, (ih e he hx).2.1⟩
      refine ⟨(foldl_or (v := fun _ => 0) gs g0).2.1 fun x hx => (key x hx).1,
        (foldl_or (d := ⟨[], []⟩) (v := fun _ => 0) gs g0).2.2 n fun x hx => (key x hx).2, fun v => ?_⟩
      rw [StateExpr.SatClocks, anyClocks_iff, (foldl_or gs g0).1]
      constructor
      · rintro ⟨e, he, h⟩
        obtain ⟨g, hgm, hg⟩ := forall2_mem_left hf _ he
        exact ⟨g, hgm, ((ih e he hg).2.2 v).1 h⟩
      · rintro ⟨g, hgm, h⟩
        obtain ⟨e, he, hg⟩ := forall2_mem_right hf g hgm
        exact ⟨e, he, ((ih e he hg).2.2 v).2 h⟩
  | location x =>
    intro g h
    rw [StateExpr.toBool] at h
    cases h
    refine ⟨trivial, trivial, fun v => ?_⟩
    rw [StateExpr.SatClocks]
    exact ⟨fun _ => rfl, fun _ => trivial⟩
  | not e =>
    intro g h
    rw [StateExpr.toBool] at h
    cases h
  | bool b =>
    intro g h
    rw [StateExpr.toBool] at h
    cases h
    refine ⟨trivial, trivial, fun v => ?_⟩
    rw [StateExpr.SatClocks]
    exact Iff.rfl

theorem plain_readable {r : Recipe} {e : StateExpr} (hp : e.Plain r) : e.Readable r := by
  induction hp with
  | cmp h => exact .cmp h
  | and _ ih => exact .and ih
  | location _ => exact .location _
  | bool b => exact .bool b

/-- Without disjunctions and negations a state expression says that its clock constraints hold and that components
are where it says. -/
theorem plain_sat {r : Recipe} {e : StateExpr} (hp : e.Plain r) (l : LocId) (v : Val) :
    e.Sat r l v ↔ e.SatClocks r v ∧ ∀ x, e.Names x →
      r.At l x.component x.specialId x.name ∧ ∀ n, r.At l x.component x.specialId n → n = x.name := by
  induction hp with
  | cmp _ =>
    rw [StateExpr.Sat, StateExpr.SatClocks]
    exact ⟨fun h => ⟨h, fun x hx => by cases hx⟩, fun h => h.1⟩
  | and _ ih =>
    rw [StateExpr.Sat, StateExpr.SatClocks, satAll_iff, allClocks_iff]
    constructor
    · intro h
      refine ⟨fun e he => ((ih e he).1 (h e he)).1, fun x hx => ?_⟩
      cases hx with
      | and he hn => exact ((ih _ he).1 (h _ he)).2 x hn
    · rintro ⟨h1, h2⟩ e he
      exact (ih e he).2 ⟨h1 e he, fun x hx => h2 x (.and he hx)⟩
  | location _ =>
    rw [StateExpr.Sat, StateExpr.SatClocks]
    exact ⟨fun h => ⟨trivial, fun x hx => by cases hx; exact h⟩, fun h => h.2 _ (.location _)⟩
  | bool b =>
    rw [StateExpr.Sat, StateExpr.SatClocks]
    exact ⟨fun h => ⟨h, fun x hx => by cases hx⟩, fun h => h.1⟩

theorem plain_names {r : Recipe} {e : StateExpr} (hp : e.Plain r) {x : CompVar} (hx : e.Names x) :
    ∃ c, (c, x.specialId) ∈ r.namedComponents ∧ c.name = x.component := by
  induction hp with
  | cmp _ => cases hx
  | and _ ih => cases hx with | and he hn => exact ih _ he hn
  | location h => cases hx; exact h
  | bool _ => cases hx

theorem namedComponents_mem {r : Recipe} {p : Component × Option String} (h : p ∈ r.namedComponents) :
    p.1 ∈ r.components := by
  induction r with
  | component c i => cases List.mem_singleton.1 h; exact List.mem_singleton.2 rfl
  | composition l r ih1 ih2 | conjunction l r ih1 ih2 | quotient l r _ ih1 ih2 =>
    rcases List.mem_append.1 h with h | h
    · exact List.mem_append_left _ (ih1 h)
    · exact List.mem_append_right _ (ih2 h)

section
variable {F : Type} [ZoneLib F]

/-- **C46**, meaning (partial): an accepted state of a reachability query stands for exactly the locations in which
all named components are where it says, with the clock valuations in which its clock constraints hold.  Missing: names
of components that do not occur in the system, comparisons outside the fragment of C01 (violated below or in C01), and
the special locations of quotients, which no query state stands for. -/
theorem C46_denotes_partial (env : CompileEnv F) (henv : env.Perm) (r : Recipe) (hr : r.Ok (dim F)) (s : Sys F)
    (i j : Nat) (hs : r.compile env i = .ok (s, j)) (e : StateExpr) (he : e.Readable r)
    (hk : ∀ x, e.Names x → r.Knows x) (st : State F)
    (h : getState e r s = .ok st) (l : LocId) (hl : r.Shape l) (v : Val) (hv : Valid (dim F) v) :
    st.loc.id.Matches l ∧ v ∈ den st.zone ↔ e.SatClocks r v ∧ ∀ x, e.Names x →
      r.At l x.component x.specialId x.name ∧ ∀ n, r.At l x.component x.specialId n → n = x.name := by
  obtain ⟨hamb, vs, g, h1, h2, h3, h4, h5⟩ := getState_parts h
  have hd : ∀ c ∈ r.namedComponents, c.1.decls.InDim (dim F) := fun c hc =>
    (hr.1 c.1 (namedComponents_mem hc)).decls
  obtain ⟨hg, hdim, hsat⟩ := toBool_clocks hamb hd he h4
  obtain ⟨_, _, hm⟩ := locationTree_spec (ambiguousLocations_spec h2) henv hr hs h3
  have hz : v ∈ den st.zone ↔ Holds ⟨[], []⟩ v g := by
    rcases C01_guard_exact_partial (F := F) ⟨[], []⟩ (fun p hp => by cases hp) g hdim hg univ with ⟨z, h6, h7⟩ | h6
    · rw [h5] at h6
      cases h6
      rw [h7, den_univ]
      exact ⟨fun h => h.2, fun h => ⟨hv, h⟩⟩
    · rw [h5] at h6; cases h6
  rw [hsat, hz, hm l hl, and_comm]
  refine and_congr_right fun _ => ⟨fun h x hx => ?_, fun h c i n hat w hw h6 h7 => ?_⟩
  · obtain ⟨c, hc1, hc2⟩ := hk x hx
    obtain ⟨n, hn⟩ := exists_at hl hc1
    rw [hc2] at hn
    have := h _ _ _ hn x ((h1 x).2 hx) rfl rfl
    exact ⟨this ▸ hn, fun m hm => h _ _ _ hm x ((h1 x).2 hx) rfl rfl⟩
  · subst h6 h7
    exact (h w ((h1 w).1 hw)).2 n hat

/-- **C46**, meaning (partial): without disjunctions an accepted state stands for exactly the locations and clock
valuations in which the state expression holds.  Missing: as before, and disjunctions, for which it is false. -/
theorem C46_meaning_partial (env : CompileEnv F) (henv : env.Perm) (r : Recipe) (hr : r.Ok (dim F)) (s : Sys F)
    (i j : Nat) (hs : r.compile env i = .ok (s, j)) (e : StateExpr) (he : e.Plain r) (st : State F)
    (h : getState e r s = .ok st) (l : LocId) (hl : r.Shape l) (v : Val) (hv : Valid (dim F) v) :
    st.loc.id.Matches l ∧ v ∈ den st.zone ↔ e.Sat r l v :=
  (C46_denotes_partial env henv r hr s i j hs e (plain_readable he) (fun _ hx => plain_names he hx) st h l hl v hv).trans
    (plain_sat he l v).symm

/-! ## Acceptance -/

theorem toArith_known {r : Recipe} : ∀ {o : Operand}, o.Known r → ambiguousComponents r.namedComponents = false →
    ∃ a, o.toArith r.namedComponents = .ok a
  | .number n, _, _ => ⟨_, rfl⟩
  | .clock x, h, hamb => by
    obtain ⟨i, c, hc, hn, hi⟩ := h
    rw [Operand.toArith]
    split
    · next hf =>
      have := List.find?_eq_none.1 hf _ hc
      simp [hn] at this
    · next d hf =>
      have hp := List.find?_some hf
      simp only [Bool.and_eq_true, decide_eq_true_eq] at hp
      have := ambiguousComponents_spec hamb d (List.mem_of_find?_eq_some hf) _ hc (hp.1.trans hn.symm) hp.2
      subst this
      have hi : Decls.clockIndex c.decls x.name = some i := hi
      rw [hi]
      exact ⟨_, rfl⟩
  | .difference a b, h, hamb => by
    obtain ⟨x, hx⟩ := toArith_known h.1 hamb
    obtain ⟨y, hy⟩ := toArith_known h.2 hamb
    exact ⟨.dif x y, by rw [Operand.toArith, hx, hy]; rfl⟩
  | .sum a b, h, hamb => by
    obtain ⟨x, hx⟩ := toArith_known h.1 hamb
    obtain ⟨y, hy⟩ := toArith_known h.2 hamb
    exact ⟨.add x y, by rw [Operand.toArith, hx, hy]; rfl⟩

theorem simple_reads {r : Recipe} (hamb : ambiguousComponents r.namedComponents = false) {e : StateExpr}
    (h : e.Simple r) : (∃ g, e.toBool r.namedComponents = .ok g) ∧ ∃ vs, e.getLocations = .ok vs := by
  induction h with
  | @cmp op a b ha hb =>
    obtain ⟨x, hx⟩ := toArith_known ha hamb
    obtain ⟨y, hy⟩ := toArith_known hb hamb
    exact ⟨⟨op.toBool x y, by rw [StateExpr.toBool, hx, hy]; rfl⟩, ⟨[], by rw [StateExpr.getLocations]⟩⟩
  | @and es h0 _ ih =>
    constructor
    · have : ∀ es : List StateExpr, (∀ e ∈ es, ∃ g, e.toBool r.namedComponents = .ok g) →
          ∃ gs, StateExpr.toBools r.namedComponents es = .ok gs ∧ gs.length = es.length := by
        intro es
        induction es with
        | nil => exact fun _ => ⟨[], by rw [StateExpr.toBools], rfl⟩
        | cons e es ih' =>
          intro h
          obtain ⟨g, hg⟩ := h e (by simp)
          obtain ⟨gs, hgs, hl⟩ := ih' fun e he => h e (by simp [he])
          exact ⟨g :: gs, by rw [StateExpr.toBools, hg, hgs]; rfl, by simp [hl]⟩
      obtain ⟨gs, hgs, hl⟩ := this es fun e he => (ih e he).1
      rw [StateExpr.toBool, hgs]
      cases gs with
      | nil =>
        cases es with
        | nil => exact absurd rfl h0
        | cons a b => cases hl
      | cons g gs => exact ⟨_, rfl⟩
    · have : ∀ es : List StateExpr, (∀ e ∈ es, ∃ vs, e.getLocations = .ok vs) →
          ∃ vs, StateExpr.getAllLocations es = .ok vs := by
        intro es
        induction es with
        | nil => exact fun _ => ⟨[], by rw [StateExpr.getAllLocations]⟩
        | cons e es ih' =>
          intro h
          obtain ⟨g, hg⟩ := h e (by simp)
          obtain ⟨gs, hgs⟩ := ih' fun e he => h e (by simp [he])
          exact ⟨g ++ gs, by rw [StateExpr.getAllLocations, hg, hgs]; rfl⟩
      obtain ⟨vs, hvs⟩ := this es fun e he => (ih e he).2
      exact ⟨vs, by rw [StateExpr.getLocations, hvs]⟩
  | location _ _ _ => exact ⟨⟨.bool true, by rw [StateExpr.toBool]⟩, ⟨_, by rw [StateExpr.getLocations]⟩⟩
  | bool b => exact ⟨⟨.bool b, by rw [StateExpr.toBool]⟩, ⟨[], by rw [StateExpr.getLocations]⟩⟩

theorem simple_names {r : Recipe} {e : StateExpr} (h : e.Simple r) {x : CompVar} (hx : e.Names x) :
    ∃ c, (c, x.specialId) ∈ r.namedComponents ∧ c.name = x.component ∧ ∃ l ∈ c.locations, l.id = x.name := by
  induction h with
  | cmp _ _ => cases hx
  | and _ _ ih => cases hx with | and he hn => exact ih _ he hn
  | location h hc hl => cases hx; exact ⟨_, h, hc, hl⟩
  | bool _ => cases hx

theorem locationTree_exists {vs : List CompVar} : ∀ {r : Recipe} {env : CompileEnv F} {i j : Nat} {s : Sys F},
    env.Perm → r.compile env i = .ok (s, j) →
    (∀ c id, (c, id) ∈ r.namedComponents → ∀ v ∈ vs, v.component = c.name → v.specialId = id →
      ∃ l ∈ c.locations, l.id = v.name) → ∃ t, r.locationTree vs s = .ok t
  | .composition l r, env, i, j, s, he, hs, h => by
    obtain ⟨⟨sl, k⟩, h1, hs⟩ := bind_ok hs
    obtain ⟨⟨sr, k'⟩, h2, hs⟩ := bind_ok hs
    obtain ⟨s', h3, hs⟩ := bind_ok hs
    cases hs
    obtain ⟨_, rfl⟩ := Sys.newComposition_eq h3
    obtain ⟨t, ht⟩ := locationTree_exists (env := env.sub false) he h1 fun c id hc => h c id (List.mem_append_left _ hc)
    obtain ⟨u, hu⟩ := locationTree_exists (env := env.sub true) he h2 fun c id hc => h c id (List.mem_append_right _ hc)
    rw [Recipe.locationTree, Sys.children, ok_bind]
    dsimp only
    rw [ht, ok_bind, hu, ok_bind]
    exact ⟨_, rfl⟩
  | .conjunction l r, env, i, j, s, he, hs, h => by
    obtain ⟨⟨sl, k⟩, h1, hs⟩ := bind_ok hs
    obtain ⟨⟨sr, k'⟩, h2, hs⟩ := bind_ok hs
    obtain ⟨s', h3, hs⟩ := bind_ok hs
    cases hs
    obtain ⟨_, _, rfl⟩ := Sys.newConjunction_eq (newConjunction_unchecked h3)
    obtain ⟨t, ht⟩ := locationTree_exists (env := env.sub false) he h1 fun c id hc => h c id (List.mem_append_left _ hc)
    obtain ⟨u, hu⟩ := locationTree_exists (env := env.sub true) he h2 fun c id hc => h c id (List.mem_append_right _ hc)
    rw [Recipe.locationTree, Sys.children, ok_bind]
    dsimp only
    rw [ht, ok_bind, hu, ok_bind]
    exact ⟨_, rfl⟩
  | .quotient l r q, env, i, j, s, he, hs, h => by
    obtain ⟨⟨sl, k⟩, h1, hs⟩ := bind_ok hs
    obtain ⟨⟨sr, k'⟩, h2, hs⟩ := bind_ok hs
    obtain ⟨s', h3, hs⟩ := bind_ok hs
    cases hs
    obtain ⟨_, rfl⟩ := Sys.newQuotient_eq (newQuotient_unchecked h3)
    obtain ⟨t, ht⟩ := locationTree_exists (env := env.sub false) he h1 fun c id hc => h c id (List.mem_append_left _ hc)
    obtain ⟨u, hu⟩ := locationTree_exists (env := env.sub true) he h2 fun c id hc => h c id (List.mem_append_right _ hc)
    rw [Recipe.locationTree, Sys.children, ok_bind]
    dsimp only
    rw [ht, ok_bind, hu, ok_bind]
    exact ⟨_, rfl⟩
  | .component c id, env, i, j, s, he, hs, h => by
    obtain ⟨x, h1, hs⟩ := bind_ok hs
    cases hs
    rw [Recipe.locationTree]
    split
    · exact ⟨_, rfl⟩
    · next v hf =>
      have hv := List.find?_some hf
      simp only [Bool.and_eq_true, decide_eq_true_eq] at hv
      obtain ⟨l, hl, hn⟩ := h c id (List.mem_singleton.2 rfl) v (List.mem_of_find?_eq_some hf) hv.1 hv.2
      unfold CompComp.compile CompComp.compileWith at h1
      split at h1
      · cases h1
      obtain ⟨locs, h2, h1⟩ := bind_ok h1
      obtain ⟨edges, h3, h1⟩ := bind_ok h1
      cases h1
      have hm : LocId.simple v.name ∈ (env.locOrder i locs).map (·.1) := by
        rw [((he i locs).map _).mem_iff, ← hn]
        exact (buildLocations_spec h2).2.2 l hl
      obtain ⟨t, ht, _⟩ := lookup_isSome hm
      unfold Sys.getLocation
      dsimp only
      rw [ht]
      exact ⟨t, rfl⟩

/-- **C46**, acceptance: a conjunction of comparisons and locations is accepted if components can be told apart, all
names refer to something, and no two different locations are named for one component; the only other outcome is an
overflow in its constants. -/
theorem C46_accepts (env : CompileEnv F) (henv : env.Perm) (r : Recipe) (hr : r.Ok (dim F)) (s : Sys F)
    (i j : Nat) (hs : r.compile env i = .ok (s, j)) (e : StateExpr) (he : e.Readable r) (hk : e.Simple r)
    (hc : ∀ c ∈ r.namedComponents, ∀ d ∈ r.namedComponents, c.1.name = d.1.name → c.2 = d.2 → c = d)
    (hu : ∀ x y, e.Names x → e.Names y → x.component = y.component → x.specialId = y.specialId → x.name = y.name) :
    (∃ st, getState e r s = .ok st) ∨ getState e r s = .error (.panic "arithmetic overflow") := by
  have hamb : ambiguousComponents r.namedComponents = false := by
    unfold ambiguousComponents
    rw [List.any_eq_false]
    intro c hcm
    rw [Bool.not_eq_true, List.any_eq_false]
    intro d hdm hh
    simp only [Bool.and_eq_true, decide_eq_true_eq] at hh
    exact hh.1 (hc c hcm d hdm hh.2.1 hh.2.2)
  obtain ⟨⟨g, hg⟩, vs, hvs⟩ := simple_reads hamb hk
  have hmem : ∀ x, x ∈ dedupAdjacent vs ↔ e.Names x := fun x =>
    (mem_dedupAdjacent vs x).trans (getLocations_spec e vs hvs x)
  have hamb' : ambiguousLocations (dedupAdjacent vs) = false := by
    unfold ambiguousLocations
    rw [List.any_eq_false]
    intro x hx
    rw [Bool.not_eq_true, List.any_eq_false]
    intro y hy hh
    simp only [Bool.and_eq_true, decide_eq_true_eq] at hh
    obtain ⟨h0, h1, h2⟩ := hh
    apply h0
    have := hu x y ((hmem x).1 hx) ((hmem y).1 hy) h1 h2
    cases x; cases y
    simp_all
  obtain ⟨t, ht⟩ := locationTree_exists (vs := dedupAdjacent vs) henv hs fun c id hcm v hv h1 h2 => by
    obtain ⟨d, hd, hdn, hl⟩ := simple_names hk ((hmem v).1 hv)
    have := hc _ hcm _ hd (h1.symm.trans hdn.symm) h2.symm
    rw [show c = d from congrArg Prod.fst this]
    exact hl
  obtain ⟨hgood, hdim, _⟩ := toBool_clocks hamb (fun c hc => (hr.1 c.1 (namedComponents_mem hc)).decls) he hg
  have : getState e r s = (do
      let zone ← applyConstraints ⟨[], []⟩ g univ
      .ok ⟨t, zone⟩ : Res (State F)) := by
    unfold getState
    rw [hamb]
    simp only [Bool.false_eq_true, if_false, hvs, ok_bind, hamb', ht, hg]
  rw [this]
  rcases C01_guard_exact_partial (F := F) ⟨[], []⟩ (fun p hp => by cases hp) g hdim hgood univ with ⟨z, h6, _⟩ | h6
  · rw [h6]; exact .inl ⟨_, rfl⟩
  · rw [h6]; exact .inr rfl

/-- **C46**, use: an accepted query gives the search what the theorems about it (C14, C15, C35) ask for: an accepted
system, a start location of the system, and an end location that is a pattern of the system. -/
theorem C46_query (env : CompileEnv F) (henv : env.Perm) (r : Recipe) (hr : r.Ok (dim F))
    (start : Option StateExpr) (goal : StateExpr) (s : Sys F) (st en : State F)
    (h : reachabilityQuery env r start goal = .ok (s, st, en)) :
    s.Accepted ∧ s.IsLoc st.loc ∧ s.IsPattern en.loc := by
  unfold reachabilityQuery at h
  obtain ⟨⟨s', j⟩, h1, h⟩ := bind_ok h
  obtain ⟨st', h2, h⟩ := bind_ok h
  obtain ⟨en', h3, h⟩ := bind_ok h
  cases h
  have hacc := Recipe.compile_accepted henv hr h1
  refine ⟨hacc, ?_, ?_⟩
  · cases start with
    | none =>
      obtain ⟨o, h4, h2⟩ := bind_ok h2
      cases o with
      | none => cases h2
      | some x =>
        cases h2
        obtain ⟨o, ho, hinit⟩ := hacc.good.initial
        cases o with
        | none =>
          unfold Sys.initialState at h4
          rw [ho] at h4
          cases h4
        | some l =>
          have hl := hinit l rfl
          rcases Sys.initialState_spec ho with ⟨h5, _⟩ | ⟨z, h5, _⟩
          · have h4 : s.ts.initialState = _ := h4
            rw [h5] at h4; cases h4
          · have h4 : s.ts.initialState = _ := h4
            rw [h5] at h4; cases h4; exact hl
    | some e =>
      obtain ⟨x, h4, h2⟩ := bind_ok h2
      split at h2
      · cases h2
      next hp =>
      cases h2
      obtain ⟨_, vs, g, _, h6, h7, _⟩ := getState_parts h4
      exact (locationTree_spec (ambiguousLocations_spec h6) henv hr h1 h7).2.1 (by simpa using hp)
  · obtain ⟨_, vs, g, _, h6, h7, _⟩ := getState_parts h3
    exact (locationTree_spec (ambiguousLocations_spec h6) henv hr h1 h7).1

end

/-! ## Examples -/

/-- Two locations and one clock -/
def exDoor : Component := ⟨"A", ⟨[], [("x", 1)]⟩,
  [⟨"L0", none, .initial, "NORMAL"⟩, ⟨"L1", none, .normal, "NORMAL"⟩],
  [⟨"e", "L0", "L1", .input, none, some [⟨"x", .int 0⟩], "a"⟩]⟩

def exDoorRecipe : Recipe := .component exDoor none

def exEnv4 : CompileEnv Fed4 := ⟨fun _ l => l, fun _ => ⟨fun _ => ["a"], fun _ => ["a"], fun _ => []⟩, 10⟩

def sysDoor : Sys Fed4 := (getOk (exDoorRecipe.compile exEnv4 0) (by decide +kernel)).1

theorem sysDoor_eq : exDoorRecipe.compile exEnv4 0 = .ok (sysDoor, 1) := by
  have := getOk_eq (r := exDoorRecipe.compile exEnv4 0) (by decide +kernel)
  rw [this]; rfl

theorem exDoor_ok : exDoorRecipe.Ok (dim Fed4) := by
  refine ⟨fun c hc => ?_, fun q hq => by cases hq⟩
  cases List.mem_singleton.1 hc
  exact Component.ok_of_okB (by decide)

/-- The hypotheses of `C46_meaning_partial` and `C46_query` hold for the query for `A.L1 && A.x < 3`. -/
example : exEnv4.Perm ∧ exDoorRecipe.Ok (dim Fed4) ∧
    StateExpr.Plain exDoorRecipe (.and [.location ⟨"A", none, "L1"⟩, .cmp .lt (.clock ⟨"A", none, "x"⟩) (.number 3)]) ∧
    (∃ st, getState (.and [.location ⟨"A", none, "L1"⟩, .cmp .lt (.clock ⟨"A", none, "x"⟩) (.number 3)])
      exDoorRecipe sysDoor = .ok st) ∧ exDoorRecipe.Shape (.simple "L1") ∧
    ∃ x, reachabilityQuery exEnv4 exDoorRecipe none
      (.and [.location ⟨"A", none, "L1"⟩, .cmp .lt (.clock ⟨"A", none, "x"⟩) (.number 3)]) = .ok x := by
  refine ⟨fun _ _ => .refl _, exDoor_ok, .and fun e he => ?_, ⟨_, rfl⟩, .component _ _ _, ⟨_, rfl⟩⟩
  simp only [List.mem_cons, List.not_mem_nil, or_false] at he
  rcases he with rfl | rfl
  · exact .location ⟨exDoor, List.mem_singleton.2 rfl, rfl⟩
  · refine .cmp fun x y hx hy => ?_
    have h1 : x = .clock 1 := by cases hx; rfl
    have h2 : y = .int 3 := by cases hy; rfl
    subst h1 h2
    exact .posConst (.chain (.clock (.inl rfl))) rfl

/-- The hypotheses of `C46_accepts` hold for it too. -/
example : (∃ st, getState (.and [.location ⟨"A", none, "L1"⟩, .cmp .lt (.clock ⟨"A", none, "x"⟩) (.number 3)])
      exDoorRecipe sysDoor = .ok st) ∨
    getState (.and [.location ⟨"A", none, "L1"⟩, .cmp .lt (.clock ⟨"A", none, "x"⟩) (.number 3)])
      exDoorRecipe sysDoor = .error (.panic "arithmetic overflow") := by
  refine C46_accepts exEnv4 (fun _ _ => .refl _) exDoorRecipe exDoor_ok sysDoor 0 1 sysDoor_eq _ (.and fun e he => ?_)
    (.and (by simp) fun e he => ?_) (fun c hc d hd _ _ => ?_) fun x y hx hy _ _ => ?_
  · simp only [List.mem_cons, List.not_mem_nil, or_false] at he
    rcases he with rfl | rfl
    · exact .location _
    · refine .cmp fun x y hx hy => ?_
      have h1 : x = .clock 1 := by cases hx; rfl
      have h2 : y = .int 3 := by cases hy; rfl
      subst h1 h2
      exact .posConst (.chain (.clock (.inl rfl))) rfl
  · simp only [List.mem_cons, List.not_mem_nil, or_false] at he
    rcases he with rfl | rfl
    · exact .location (c := exDoor) (List.mem_singleton.2 rfl) rfl ⟨_, List.mem_cons_of_mem _ (List.mem_singleton.2 rfl), rfl⟩
    · exact .cmp ⟨1, exDoor, List.mem_singleton.2 rfl, rfl, rfl⟩ trivial
  · rw [List.mem_singleton.1 hc, List.mem_singleton.1 hd]
  · have : ∀ z, StateExpr.Names (.and [.location ⟨"A", none, "L1"⟩, .cmp .lt (.clock ⟨"A", none, "x"⟩) (.number 3)]) z →
        z.name = "L1" := by
      intro z hz
      cases hz with
      | and he hn =>
        simp only [List.mem_cons, List.not_mem_nil, or_false] at he
        rcases he with rfl | rfl
        · cases hn; rfl
        · cases hn
    rw [this x hx, this y hy]

/-- Two instances of one component can be given different locations. -/
example : (getState (.and [.location ⟨"A", some "1", "L1"⟩, .location ⟨"A", some "2", "L0"⟩])
    (.composition (.component exDoor (some "1")) (.component { exDoor with decls := ⟨[], [("x", 2)]⟩ } (some "2")))
    (getOk (Sys.newComposition sysDoor sysDoor) (by decide +kernel))).toBool = true := by decide +kernel

/-- A disjunction of clock constraints at a location: the hypotheses of `C46_denotes_partial` hold for
`A.L1 && (A.x < 3 || A.x > 5)` only with the location inside the disjunction, as otherwise it is rejected. -/
example : (∃ st, getState (.or [.and [.location ⟨"A", none, "L1"⟩, .cmp .lt (.clock ⟨"A", none, "x"⟩) (.number 3)],
      .cmp .gt (.clock ⟨"A", none, "x"⟩) (.number 5)]) exDoorRecipe sysDoor = .ok st) ∧
    getState (.and [.location ⟨"A", none, "L1"⟩, .or [.cmp .lt (.clock ⟨"A", none, "x"⟩) (.number 3),
      .cmp .gt (.clock ⟨"A", none, "x"⟩) (.number 5)]]) exDoorRecipe sysDoor =
      .error (.err "We do not support disjunctions with more than one location") := ⟨⟨_, rfl⟩, rfl⟩

/-- Two locations of one component are rejected. -/
example : getState (.and [.location ⟨"A", none, "L1"⟩, .location ⟨"A", none, "L0"⟩]) exDoorRecipe sysDoor =
    .error (.err "Ambiguous location") := rfl

/-- The full property is false for disjunctions: `A.L1 || A.x < 3` is accepted and stands for `A.L1` alone, although
it holds at `A.L0` while `x < 3`. -/
theorem C46_violated_disjunction :
    ∃ st, getState (.or [.location ⟨"A", none, "L1"⟩, .cmp .lt (.clock ⟨"A", none, "x"⟩) (.number 3)])
      exDoorRecipe sysDoor = .ok st ∧ ¬ st.loc.id.Matches (.simple "L0") ∧
      StateExpr.Sat exDoorRecipe (.simple "L0") zeroVal
        (.or [.location ⟨"A", none, "L1"⟩, .cmp .lt (.clock ⟨"A", none, "x"⟩) (.number 3)]) := by
  refine ⟨_, rfl, ?_, ?_⟩
  · intro h
    have : ∀ a b : LocId, a.Matches b → a = .simple "L1" → b = .simple "L1" := by
      intro a b h e
      cases h <;> cases e
      rfl
    exact absurd (this _ _ h rfl) (by decide)
  · rw [StateExpr.Sat, StateExpr.SatAny, StateExpr.SatAny, StateExpr.SatAny, StateExpr.Sat.eq_def]
    refine .inr (.inl ⟨0, 3, ?_, ?_, by norm_num [Cmp.Rel]⟩)
    · have : Operand.Value exDoorRecipe zeroVal (.clock ⟨"A", none, "x"⟩) (zeroVal 1) :=
        .clock ⟨exDoor, List.mem_singleton.2 rfl, rfl, rfl⟩
      simpa [zeroVal] using this
    · have : Operand.Value exDoorRecipe zeroVal (.number 3) ((3 : Int) : ℝ) := .number 3
      simpa using this

/-- The full property is false for names of components that are not in the system: `Z.L1` is accepted and stands for
all locations. -/
theorem C46_violated_unknown_component :
    ∃ st, getState (.location ⟨"Z", none, "L1"⟩) exDoorRecipe sysDoor = .ok st ∧
      (∀ l, exDoorRecipe.Shape l → st.loc.id.Matches l) ∧ ∀ l v, ¬ StateExpr.Sat exDoorRecipe l v (.location ⟨"Z", none, "L1"⟩) := by
  refine ⟨_, rfl, fun l _ => .any _, fun l v h => ?_⟩
  rw [StateExpr.Sat] at h
  have : ∀ (r : Recipe) c i n, r.At l c i n → r = exDoorRecipe → c = "A" := by
    intro r c i n h
    cases h <;> intro e <;> cases e
    rfl
  exact absurd (this _ _ _ _ h.1 rfl) (by decide)

end Reveaal
