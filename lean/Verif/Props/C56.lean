import Verif.Props.C34
import Verif.Spec.Protocol
import Verif.Spec.PathReport
import Verif.Props.C28
import Verif.Props.C07

/-!
# C56 Offered decisions can be sent, and name the edges that are taken
-/

namespace Reveaal
open ZoneLib
variable {F : Type} [ZoneLib F]

/-- The edges of a transition can be listed, all are such edges, and without quotients they are the ones taken. -/
def EdgesNamed (r : Recipe) (base : Nat) (s : Sys F) (x : LocId) (a : String) (t : Transition F) : Prop :=
  ∃ es tes, specificEdges t.id s = .ok es ∧ List.Forall₂ (NamesEdge r base x a) es tes ∧
    (r.NoQuotient → TakesAll t tes)

theorem withoutId_named {r : Recipe} {base : Nat} {s : Sys F} {x : LocId} {a : String} {l : LocTree F} :
    EdgesNamed r base s x a (Transition.withoutId l) :=
  ⟨[], [], rfl, .nil, fun _ => ⟨fun v => by simp [Transition.withoutId, den_univ], rfl⟩⟩

omit [ZoneLib F] in
theorem edgesAll_ok {s : Sys F} {P : SpecificEdge → Transition F → Prop} : ∀ {ts : List TransId},
    (∀ t ∈ ts, ∃ es tes, specificEdges t s = .ok es ∧ List.Forall₂ P es tes) →
    ∃ es tes, specificEdgesAll ts s = .ok es ∧ List.Forall₂ P es tes := by
  intro ts
  induction ts with
  | nil => intro _; exact ⟨[], [], rfl, .nil⟩
  | cons t ts ih =>
    intro h
    obtain ⟨es, tes, h1, h2⟩ := h t (by simp)
    obtain ⟨fs, tfs, h3, h4⟩ := ih fun t ht => h t (List.mem_cons_of_mem _ ht)
    exact ⟨es ++ fs, tes ++ tfs, by rw [specificEdgesAll, h1, ok_bind, h3, ok_bind], forall2_append h2 h4⟩

theorem takesAll_combine {t1 t2 t : Transition F} {A B : List (Transition F)} {c : CompType} (hc : c.IsProd)
    (h1 : TakesAll t1 A) (h2 : TakesAll t2 B) (h : Transition.combine t1 t2 c = .ok t) : TakesAll t (A ++ B) := by
  obtain ⟨i, x, _, h'⟩ := combine_ok (l := t1) (r := t2) hc
  rw [h'] at h; cases h
  refine ⟨fun v => ?_, by simp only [List.flatMap_append, ← h1.2, ← h2.2]⟩
  rw [den_inter, Set.mem_inter_iff, h1.1, h2.1]
  simp only [List.mem_append]
  constructor
  · rintro ⟨⟨a, b⟩, c, d⟩
    exact ⟨a, fun te hte => hte.elim (b te) (d te)⟩
  · rintro ⟨a, b⟩
    exact ⟨⟨a, fun te h => b te (.inl h)⟩, a, fun te h => b te (.inr h)⟩

theorem combine_named {p q : Recipe} {base : Nat} {sl sr : Sys F} {i o lu ru cm : List String} {a : String}
    {xl xr : LocId} {t1 t2 t : Transition F} (h1 : EdgesNamed p base sl xl a t1)
    (h2 : EdgesNamed q (base + p.components.length) sr xr a t2) :
    (Transition.combine t1 t2 .composition = .ok t →
      EdgesNamed (.composition p q) base (.composition sl sr i o lu ru cm) (.composition xl xr) a t) ∧
    (Transition.combine t1 t2 .conjunction = .ok t →
      EdgesNamed (.conjunction p q) base (.conjunction sl sr i o) (.conjunction xl xr) a t) := by
  obtain ⟨es, tes, e1, e2, e3⟩ := h1
  obtain ⟨fs, tfs, f1, f2, f3⟩ := h2
  constructor
  · intro h
    refine ⟨es ++ fs, tes ++ tfs, ?_, forall2_append (e2.imp ?_) (f2.imp ?_), fun hq =>
      takesAll_combine (.inr rfl) (e3 hq.1) (f3 hq.2) h⟩
    · unfold Transition.combine at h
      obtain ⟨x, _, h⟩ := bind_ok h
      cases h
      simp only [specificEdges, Sys.compType, ne_eq, not_true_eq_false, if_false, Sys.children, ok_bind, e1, f1]
    · rintro e te ⟨n, k, l, edge, g1, g⟩
      exact ⟨n, k, l, edge, .compositionLeft g1, g⟩
    · rintro e te ⟨n, k, l, edge, g1, g2, g⟩
      exact ⟨_, k, l, edge, .compositionRight g1, by rw [g2, Nat.add_assoc], g⟩
  · intro h
    refine ⟨es ++ fs, tes ++ tfs, ?_, forall2_append (e2.imp ?_) (f2.imp ?_), fun hq =>
      takesAll_combine (.inl rfl) (e3 hq.1) (f3 hq.2) h⟩
    · unfold Transition.combine at h
      obtain ⟨x, _, h⟩ := bind_ok h
      cases h
      simp only [specificEdges, Sys.compType, ne_eq, not_true_eq_false, if_false, Sys.children, ok_bind, e1, f1]
    · rintro e te ⟨n, k, l, edge, g1, g⟩
      exact ⟨n, k, l, edge, .conjunctionLeft g1, g⟩
    · rintro e te ⟨n, k, l, edge, g1, g2, g⟩
      exact ⟨_, k, l, edge, .conjunctionRight g1, by rw [g2, Nat.add_assoc], g⟩

/-- The transitions of a quotient carry identifiers of transitions of its sides. -/
theorem quotientMoves_ids {T S : Sys F} {clock : Nat} {ni : String} {lt ls : LocTree F} {a : String}
    {tt st : List (Transition F)} {t : Transition F} (h : t ∈ Sys.quotientMoves T S clock ni lt ls a tt st) :
    t.id = .none ∨ ∃ L R : List (Transition F), t.id = .quotient (L.map (·.id)) (R.map (·.id)) ∧
      (∀ x ∈ L, x ∈ tt) ∧ ∀ x ∈ R, x ∈ st := by
  unfold Sys.quotientMoves at h
  have h := (List.mem_filter.1 h).1
  simp only [List.mem_append] at h
  rcases h with ((((h | h) | h) | h) | h) | h
  · split at h
    · obtain ⟨x, hx, h⟩ := List.mem_flatMap.1 h
      obtain ⟨y, hy, rfl⟩ := List.mem_map.1 h
      exact .inr ⟨[x], [y], rfl, by simpa using hx, by simpa using hy⟩
    · cases h
  · split at h
    · obtain ⟨y, hy, rfl⟩ := List.mem_map.1 h
      exact .inr ⟨[], [y], rfl, by simp, by simpa using hy⟩
    · cases h
  · split at h
    · rw [List.mem_singleton.1 h]
      exact .inr ⟨[], st, rfl, by simp, fun x hx => hx⟩
    · rw [List.mem_singleton.1 h]; exact .inl rfl
  · split at h
    · obtain ⟨y, hy, rfl⟩ := List.mem_map.1 h
      exact .inr ⟨tt, [y], rfl, fun x hx => hx, by simpa using hy⟩
    · cases h
  · split at h
    · rw [List.mem_singleton.1 h]; exact .inl rfl
    · cases h
  · split at h
    · obtain ⟨y, hy, rfl⟩ := List.mem_map.1 h
      exact .inr ⟨[y], [], rfl, by simpa using hy, by simp⟩
    · cases h

theorem components_length {r : Recipe} {env : CompileEnv F} {i j : Nat} {s : Sys F} (he : env.Perm)
    (h : r.compile env i = .ok (s, j)) : j = i + r.components.length := by
  induction r generalizing env i j s with
  | composition l r ihl ihr =>
    obtain ⟨⟨sl, k⟩, h1, h⟩ := bind_ok h
    obtain ⟨⟨sr, m⟩, h2, h⟩ := bind_ok h
    obtain ⟨x, h3, h⟩ := bind_ok h
    cases h
    rw [ihr (env := env.sub true) he h2, ihl (env := env.sub false) he h1, Recipe.components, List.length_append, Nat.add_assoc]
  | conjunction l r ihl ihr =>
    obtain ⟨⟨sl, k⟩, h1, h⟩ := bind_ok h
    obtain ⟨⟨sr, m⟩, h2, h⟩ := bind_ok h
    obtain ⟨x, h3, h⟩ := bind_ok h
    cases h
    rw [ihr (env := env.sub true) he h2, ihl (env := env.sub false) he h1, Recipe.components, List.length_append, Nat.add_assoc]
  | quotient l r q ihl ihr =>
    obtain ⟨⟨sl, k⟩, h1, h⟩ := bind_ok h
    obtain ⟨⟨sr, m⟩, h2, h⟩ := bind_ok h
    obtain ⟨x, h3, h⟩ := bind_ok h
    cases h
    rw [ihr (env := env.sub true) he h2, ihl (env := env.sub false) he h1, Recipe.components, List.length_append, Nat.add_assoc]
  | component c id =>
    obtain ⟨x, h1, h⟩ := bind_ok h
    cases h; rfl

/-- The transitions of a system are described by edges of its components. -/
theorem next_named : ∀ {r : Recipe} {env : CompileEnv F} {i j : Nat} {s : Sys F}, env.Perm →
    r.compile env i = .ok (s, j) → ∀ {x : LocTree F} {a : String} {trans : List (Transition F)}, s.IsLoc x →
    s.next x a = .ok trans → ∀ t ∈ trans, EdgesNamed r i s x.id a t := by
  intro r
  induction r with
  | component c id =>
    intro env i j s he h x a trans hx hn
    obtain ⟨y, h1, h⟩ := bind_ok h
    cases h
    have hy := h1
    obtain ⟨_, hname, hid, _⟩ := compile_infos (he i) (he i) h1 h1
    obtain ⟨loc, hloc, hs, es, hlk, hf⟩ := compile_next_exact (he i) h1 hx
    obtain ⟨inv, hxe, _⟩ := simple_spec hs
    simp only [Sys.next, CompComp.next] at hn
    split at hn
    · cases hn
    split at hn
    · cases hn; intro t ht; rw [List.mem_singleton.1 ht]; exact withoutId_named
    split at hn
    · cases hn; intro t ht; rw [List.mem_singleton.1 ht]; exact withoutId_named
    rw [hlk] at hn
    cases hn
    intro t ht
    obtain ⟨z, hz, rfl⟩ := List.mem_map.1 ht
    obtain ⟨hz, ha⟩ := List.mem_filter.1 hz
    obtain ⟨e, hem, hact, hfe⟩ := forall2_mem_right hf z hz
    obtain ⟨hem, hsrc⟩ := List.mem_filter.1 hem
    obtain ⟨_, hti, _⟩ := fromEdge_spec hfe
    refine ⟨[⟨⟨y.name, y.compId⟩, e.id⟩], [z.2], ?_, .cons ⟨0, c, loc.id, e, ?_, by rw [hname, hid]; rfl, hem, rfl,
      of_decide_eq_true hsrc, hact.symm.trans (of_decide_eq_true ha), hfe⟩ .nil, fun _ => ⟨fun v => ?_, by simp⟩⟩
    · rw [hti]; rfl
    · rw [hxe]; exact .component
    · simp only [List.mem_singleton, forall_eq]
      exact ⟨fun h => ⟨den_valid h, h⟩, fun h => h.2⟩
  | composition p q ihp ihq =>
    intro env i j s he h x a trans hx hn
    obtain ⟨⟨sl, k⟩, h1, h⟩ := bind_ok h
    obtain ⟨⟨sr, m⟩, h2, h⟩ := bind_ok h
    obtain ⟨y, h3, h⟩ := bind_ok h
    cases h
    have hk := components_length (env := env.sub false) he h1
    obtain ⟨_, rfl⟩ := Sys.newComposition_eq h3
    obtain ⟨xl, xr, hxl, hxr, hxe⟩ := hx
    obtain ⟨g1, g2, _, _⟩ := compose_parts hxe
    have hid : x.id = .composition xl.id xr.id := by cases hxe; rfl
    have left := fun tr (hn : sl.next xl a = .ok tr) => ihp (env := env.sub false) he h1 hxl hn
    have right := fun tr (hn : sr.next xr a = .ok tr) => ihq (env := env.sub true) he h2 hxr hn
    rw [hk] at right
    have fin : ∀ L R tr {ii oo lu ru cm}, (∀ t ∈ L, EdgesNamed p i sl xl.id a t) →
        (∀ t ∈ R, EdgesNamed q (i + p.components.length) sr xr.id a t) →
        Transition.combinations L R .composition = .ok tr →
        ∀ t ∈ tr, EdgesNamed (.composition p q) i (.composition sl sr ii oo lu ru cm) x.id a t := by
      intro L R tr ii oo lu ru cm hL hR hc t ht
      obtain ⟨ts, c1, c2, _⟩ := combinations_ok (ls := L) (rs := R) (c := .composition) (.inr rfl)
      rw [hc] at c1; cases c1
      obtain ⟨u, hu, w, hw, hcb⟩ := c2 t ht
      rw [hid]
      exact (combine_named (hL u hu) (hR w hw)).1 hcb
    simp only [Sys.next] at hn
    split at hn
    · cases hn
    rw [g1, ok_bind, g2, ok_bind] at hn
    split at hn
    · obtain ⟨L, hL, hn⟩ := bind_ok hn
      obtain ⟨R, hR, hn⟩ := bind_ok hn
      exact fin L R _ (left L hL) (right R hR) hn
    split at hn
    · obtain ⟨L, hL, hn⟩ := bind_ok hn
      exact fin L _ _ (left L hL) (fun t ht => by rw [List.mem_singleton.1 ht]; exact withoutId_named) hn
    split at hn
    · obtain ⟨R, hR, hn⟩ := bind_ok hn
      exact fin _ R _ (fun t ht => by rw [List.mem_singleton.1 ht]; exact withoutId_named) (right R hR) hn
    · cases hn
  | conjunction p q ihp ihq =>
    intro env i j s he h x a trans hx hn
    obtain ⟨⟨sl, k⟩, h1, h⟩ := bind_ok h
    obtain ⟨⟨sr, m⟩, h2, h⟩ := bind_ok h
    obtain ⟨y, h3, h⟩ := bind_ok h
    cases h
    have hk := components_length (env := env.sub false) he h1
    obtain ⟨_, _, rfl⟩ := Sys.newConjunction_eq (newConjunction_unchecked h3)
    obtain ⟨xl, xr, hxl, hxr, hxe⟩ := hx
    obtain ⟨g1, g2, _, _⟩ := compose_parts hxe
    have hid : x.id = .conjunction xl.id xr.id := by cases hxe; rfl
    simp only [Sys.next] at hn
    split at hn
    · cases hn
    rw [g1, ok_bind, g2, ok_bind] at hn
    obtain ⟨L, hL, hn⟩ := bind_ok hn
    obtain ⟨R, hR, hn⟩ := bind_ok hn
    have left := ihp (env := env.sub false) he h1 hxl hL
    have right := ihq (env := env.sub true) he h2 hxr hR
    rw [hk] at right
    intro t ht
    obtain ⟨ts, c1, c2, _⟩ := combinations_ok (ls := L) (rs := R) (c := .conjunction) (.inl rfl)
    rw [hn] at c1; cases c1
    obtain ⟨u, hu, w, hw, hcb⟩ := c2 t ht
    rw [hid]
    exact (combine_named (lu := []) (ru := []) (cm := []) (left u hu) (right w hw)).2 hcb
  | quotient p q c ihp ihq =>
    intro env i j s he h x a trans hx hn
    obtain ⟨⟨sl, k⟩, h1, h⟩ := bind_ok h
    obtain ⟨⟨sr, m⟩, h2, h⟩ := bind_ok h
    obtain ⟨y, h3, h⟩ := bind_ok h
    cases h
    have hk := components_length (env := env.sub false) he h1
    obtain ⟨_, rfl⟩ := Sys.newQuotient_eq (newQuotient_unchecked h3)
    simp only [Sys.next] at hn
    split at hn
    · cases hn
    split at hn
    · split at hn
      · cases hn; intro t ht; rw [List.mem_singleton.1 ht]; exact ⟨[], [], rfl, .nil, fun hq => hq.elim⟩
      · cases hn; intro t ht; cases ht
    split at hn
    · cases hn; intro t ht; rw [List.mem_singleton.1 ht]; exact withoutId_named
    rcases hx with ⟨xl, xr, hxl, hxr, rfl⟩ | rfl | rfl
    · have g1 : (LocTree.merge xl xr).getLeft = .ok xl := rfl
      have g2 : (LocTree.merge xl xr).getRight = .ok xr := rfl
      rw [g1, ok_bind, g2, ok_bind] at hn
      obtain ⟨L, hL, hn⟩ := bind_ok hn
      obtain ⟨R, hR, hn⟩ := bind_ok hn
      cases hn
      have left : ∀ t ∈ L, EdgesNamed p i sl xl.id a t := by
        unfold Sys.ifAvailable at hL
        split at hL
        · exact ihp (env := env.sub false) he h1 hxl hL
        · cases hL; simp
      have right : ∀ t ∈ R, EdgesNamed q (i + p.components.length) sr xr.id a t := by
        rw [← hk]
        unfold Sys.ifAvailable at hR
        split at hR
        · exact ihq (env := env.sub true) he h2 hxr hR
        · cases hR; simp
      intro t ht
      rcases quotientMoves_ids ht with hid | ⟨A, B, hid, hA, hB⟩
      · exact ⟨[], [], by rw [hid]; rfl, .nil, fun hq => hq.elim⟩
      · have hl := edgesAll_ok (s := sl) (ts := A.map (·.id))
          (P := NamesEdge (F := F) (.quotient p q c) i (.quotient xl.id xr.id) a) (by
            intro u hu
            obtain ⟨w, hw, rfl⟩ := List.mem_map.1 hu
            obtain ⟨es, tes, h1, h2, _⟩ := left w (hA w hw)
            refine ⟨es, tes, h1, h2.imp ?_⟩
            rintro e te ⟨n, k, l, edge, g1, g⟩
            exact ⟨n, k, l, edge, .quotientLeft g1, g⟩)
        have hr := edgesAll_ok (s := sr) (ts := B.map (·.id))
          (P := NamesEdge (F := F) (.quotient p q c) i (.quotient xl.id xr.id) a) (by
            intro u hu
            obtain ⟨w, hw, rfl⟩ := List.mem_map.1 hu
            obtain ⟨es, tes, h1, h2, _⟩ := right w (hB w hw)
            refine ⟨es, tes, h1, h2.imp ?_⟩
            rintro e te ⟨n, k, l, edge, g1, g2, g⟩
            exact ⟨_, k, l, edge, .quotientRight g1, by rw [g2, Nat.add_assoc], g⟩)
        obtain ⟨es, tes, e1, e2⟩ := hl
        obtain ⟨fs, tfs, f1, f2⟩ := hr
        refine ⟨es ++ fs, tes ++ tfs, ?_, forall2_append e2 f2, fun hq => hq.elim⟩
        rw [hid]
        simp only [specificEdges, Sys.compType, ne_eq, not_true_eq_false, if_false, Sys.children, ok_bind, e1, f1]
    · rename_i hu; exact absurd rfl hu
    · rename_i hi _; exact absurd rfl hi

/-- What an offered decision is made from. -/
theorem fromState_mem {ts : TS F} {st : State F} : ∀ {acts : List String} {ds : List (Decision F)},
    Decision.fromState ts acts st = .ok ds → ∀ d ∈ ds, ∃ a ∈ acts, ∃ trans, ts.next st.loc a = .ok trans ∧
      ∃ t ∈ trans, Decision.fromStateTransition st t a = .ok (some d) := by
  have one : ∀ {a : String} {trans : List (Transition F)} {ds : List (Decision F)},
      Decision.fromTransitions st a trans = .ok ds → ∀ d ∈ ds,
        ∃ t ∈ trans, Decision.fromStateTransition st t a = .ok (some d) := by
    intro a trans
    induction trans with
    | nil => intro ds h; cases h; simp
    | cons t trans ih =>
      intro ds h
      obtain ⟨o, h1, h⟩ := bind_ok h
      obtain ⟨ds', h2, h⟩ := bind_ok h
      cases h
      intro d hd
      rcases List.mem_append.1 hd with hd | hd
      · rw [Option.mem_toList] at hd
        rw [hd] at h1
        exact ⟨t, by simp, h1⟩
      · obtain ⟨t', ht', h'⟩ := ih h2 d hd
        exact ⟨t', List.mem_cons_of_mem _ ht', h'⟩
  intro acts
  induction acts with
  | nil => intro ds h; cases h; simp
  | cons a acts ih =>
    intro ds h
    obtain ⟨trans, h1, h⟩ := bind_ok h
    obtain ⟨ds1, h2, h⟩ := bind_ok h
    obtain ⟨ds2, h3, h⟩ := bind_ok h
    cases h
    intro d hd
    rcases List.mem_append.1 hd with hd | hd
    · obtain ⟨t, ht, h'⟩ := one h2 d hd
      exact ⟨a, by simp, trans, h1, t, ht, h'⟩
    · obtain ⟨b, hb, h'⟩ := ih h3 d hd
      exact ⟨b, List.mem_cons_of_mem _ hb, h'⟩

theorem useTransition_loc {t : Transition F} {s s' : State F} (h : t.useAlt s = some s') :
    s'.loc = t.target ∧ ∀ v ∈ den s'.zone, v ∈ InvSet s'.loc := by
  simp only [Transition.useAlt, Transition.useTransition] at h
  split at h
  · rename_i s1 hu
    cases h
    split at hu
    · split at hu
      · cases hu
        exact ⟨rfl, fun v hv => (mem_applyInvariants.1 hv).2⟩
      · cases hu
    · cases hu
  · cases h

theorem fromStateTransition_mem {st : State F} {t : Transition F} {a : String} {d : Decision F}
    (h : Decision.fromStateTransition st t a = .ok (some d)) : d.action = a ∧ d.transition = some t ∧
      d.state.loc = st.loc ∧ (∀ v ∈ den d.state.zone, v ∈ den st.zone ∧ v ∈ den t.guard) ∧
      t.useAlt d.state = some d.nextState := by
  unfold Decision.fromStateTransition at h
  dsimp only at h
  split at h
  · split at h
    · rename_i s' hs
      cases h
      refine ⟨rfl, rfl, rfl, fun v hv => ?_, hs⟩
      rw [den_inter] at hv
      refine ⟨hv.1, ?_⟩
      have := hv.2
      unfold Transition.allowed Transition.applyGuards at this
      rw [den_inter] at this
      exact this.2
    · cases h
  · cases h

/-- **C56 (part)** Every decision offered in a simulation can be sent.  The message has the action, and names edges of
component instances, each leaving the current location of the instance and carrying the action.  Without quotients
these are the edges taken: every valuation of the decision satisfies their guards, and the updates done are theirs.
Missing from the full property: quotients name edges that are not taken (`C56_violated_quotient`). -/
theorem C56_offered_partial {r : Recipe} {env : CompileEnv F} {j : Nat} {s : Sys F} (he : env.Perm)
    (hok : r.Ok (dim F)) (hr : r.ClockTables) (hs : r.compile env 0 = .ok (s, j)) (hdim : dim F ≤ 2 ^ 32)
    {ord : List (String × Nat) → List (String × Nat)} (ho : ∀ l, (ord l).Perm l) {acts : List String}
    (hacts : ∀ a ∈ acts, s.hasAction a = true) {st : State F} (hl : s.IsLoc st.loc) {ds : List (Decision F)}
    (hds : Decision.fromState s.ts acts st = .ok ds) :
    ∀ d ∈ ds, ∃ (p : ProtoDecision) (t : Transition F) (tes : List (Transition F)), sendDecision ord s d = .ok p ∧ p.action = d.action ∧ d.transition = some t ∧
      List.Forall₂ (NamesEdge r 0 st.loc.id d.action) p.edges tes ∧
      (r.NoQuotient → (∀ v ∈ den d.state.zone, ∀ te ∈ tes, v ∈ den te.guard) ∧
        t.updates = tes.flatMap (·.updates)) := by
  intro d hd
  obtain ⟨a, ha, trans, hn, t, ht, hdt⟩ := fromState_mem hds d hd
  obtain ⟨e1, e2, e3, e4, e5⟩ := fromStateTransition_mem hdt
  obtain ⟨es, tes, n1, n2, n3⟩ := next_named he hs hl hn t ht
  have hgood := (Recipe.compile_accepted he hok hs).good
  obtain ⟨trans', hn', hgt⟩ := hgood.next st.loc a hl (hacts a ha)
  have hn'' : s.next st.loc a = .ok trans := hn
  rw [hn'] at hn''; cases hn''
  have htgt := (hgt t ht).1
  obtain ⟨u1, _⟩ := useTransition_loc e5
  have hsend : ∀ x : State F, s.IsLoc x.loc → ∃ p, sendState ord s x = .ok p := by
    intro x hx
    obtain ⟨p, h1, _⟩ := C33_round_trip he he hok hs hs hx
    obtain ⟨q, z, k1, _⟩ := C34_round_trip he he hr hs hs hdim ho x.zone
    exact ⟨⟨some p, some q⟩, by simp only [sendState, h1, k1, ok_bind]⟩
  obtain ⟨p1, hp1⟩ := hsend d.state (by rw [e3]; exact hl)
  obtain ⟨p2, hp2⟩ := hsend d.nextState (by rw [u1]; exact htgt)
  refine ⟨⟨some p1, d.action, es, some p2⟩, t, tes, ?_, rfl, e2, by rw [e1]; exact n2, fun hq =>
    ⟨fun v hv te hte => (((n3 hq).1 v).1 (e4 v hv).2).2 te hte, (n3 hq).2⟩⟩
  simp only [sendDecision, e2, n1, hp1, hp2, ok_bind]

/-! ## Quotients -/

/-- The decisions offered in a state for one action, or none if that fails. -/
def offered (a : String) (st : State Fed4) : List (Decision Fed4) :=
  match Decision.fromState sysAA.ts [a] st with
  | .ok ds => ds
  | .error _ => []

/-- The initial state of `A \\ A`. -/
def exStart : List (State Fed4) :=
  match sysAA.ts.initialState with
  | .ok (some st) => [st]
  | _ => []

/-- The second edge of `A`, `x >= 2`. -/
def exE1 : Edge := ⟨"e1", "L1", "L0", .output, some (.ge (.var "x") (.int 2)), none, "out"⟩

def exE1Trans : Transition Fed4 := getOk (Transition.fromEdge exA3 exE1) (by decide +kernel)

theorem offered_two : ((exStart.flatMap (offered "go")).flatMap fun d => (offered "out" d.nextState).map fun d' =>
    (decide ((sendDecision id sysAA d').toOption.map (·.edges) = some [⟨⟨"A", 1⟩, "e1"⟩]) &&
      !(isEmpty (inter d'.state.zone (inverse exE1Trans.guard))))) = [false, true] := by
  decide +kernel

/-- The full property is false of quotients: in `A \\ A`, after `go`, the server offers a decision that it describes as
the second instance taking its edge `e1`, with valuations that do not satisfy the guard of `e1`.  (It is the move to the
universal location, which is possible exactly because `e1` cannot be taken.) -/
theorem C56_violated_quotient : ∃ (st0 : State Fed4) (ds0 ds : List (Decision Fed4)) (d0 d : Decision Fed4)
    (p : ProtoDecision) (v : Val), sysAA.ts.initialState = .ok (some st0) ∧
    Decision.fromState sysAA.ts ["go"] st0 = .ok ds0 ∧ d0 ∈ ds0 ∧
    Decision.fromState sysAA.ts ["out"] d0.nextState = .ok ds ∧ d ∈ ds ∧
    sendDecision id sysAA d = .ok p ∧ p.edges = [⟨⟨"A", 1⟩, "e1"⟩] ∧ exE1 ∈ exA3.edges ∧
    Transition.fromEdge exA3 exE1 = .ok exE1Trans ∧ v ∈ den d.state.zone ∧ v ∉ den exE1Trans.guard := by
  have h : true ∈ ((exStart.flatMap (offered "go")).flatMap fun d => (offered "out" d.nextState).map fun d' =>
    (decide ((sendDecision id sysAA d').toOption.map (·.edges) = some [⟨⟨"A", 1⟩, "e1"⟩]) &&
      !(isEmpty (inter d'.state.zone (inverse exE1Trans.guard))))) := by rw [offered_two]; decide
  rw [List.mem_flatMap] at h
  obtain ⟨d0, h0, h⟩ := h
  obtain ⟨st0, hst, h0⟩ := List.mem_flatMap.1 h0
  obtain ⟨d, hd, h⟩ := List.mem_map.1 h
  rw [Bool.and_eq_true, decide_eq_true_eq, Bool.not_eq_true'] at h
  have hst' : sysAA.ts.initialState = .ok (some st0) := by
    unfold exStart at hst
    split at hst
    · rename_i x hx; rw [hx, List.mem_singleton.1 hst]
    · cases hst
  have off : ∀ {a st} {d : Decision Fed4}, d ∈ offered a st →
      ∃ ds, Decision.fromState sysAA.ts [a] st = .ok ds ∧ d ∈ ds := by
    intro a st d hd
    unfold offered at hd
    split at hd
    · rename_i x hx; exact ⟨x, hx, hd⟩
    · cases hd
  obtain ⟨ds0, e0, m0⟩ := off h0
  obtain ⟨ds, e1, m1⟩ := off hd
  obtain ⟨he, hv⟩ := h
  obtain ⟨v, hv⟩ := isEmpty_false_iff.1 hv
  rw [den_inter, den_inverse] at hv
  cases hp : sendDecision id sysAA d with
  | error f => rw [hp] at he; cases he
  | ok p =>
    rw [hp] at he
    refine ⟨st0, ds0, ds, d0, d, p, v, hst', e0, m0, e1, m1, hp, ?_, ?_, getOk_eq _, hv.1, hv.2.2⟩
    · simpa [Except.toOption] using he
    · unfold exE1; decide +kernel

/-! ## Example -/

/-- `A || B`. -/
def exRecipeAB : Recipe := .composition (.component exA none) (.component exB none)

def exSysAB : Sys Fed4 := (getOk (exRecipeAB.compile exEnvAA 0) (by decide +kernel)).1

theorem exSysAB_eq : exRecipeAB.compile exEnvAA 0 = .ok (exSysAB, 2) := by
  have := getOk_eq (r := exRecipeAB.compile exEnvAA 0) (by decide +kernel)
  rw [this]; rfl

/-- Non-vacuity: the hypotheses hold for `A || B`, and the decision offered first is described as both taking their
edge with `go`. -/
example : exRecipeAB.Ok (dim Fed4) ∧ exRecipeAB.ClockTables ∧ exRecipeAB.NoQuotient ∧
    exSysAB.hasAction "go" = true ∧
    ((match exSysAB.ts.initialState with
      | .ok (some st) => (Decision.fromState exSysAB.ts ["go"] st).toOption.map fun ds => ds.map fun d =>
          (sendDecision id exSysAB d).toOption.map (·.edges)
      | _ => none) = some [some [⟨⟨"A", 0⟩, "e0"⟩, ⟨⟨"B", 1⟩, "f0"⟩]]) := by
  refine ⟨⟨fun c hc => ?_, fun q hq => by cases hq⟩, fun c hc => ?_, ⟨trivial, trivial⟩, by decide +kernel,
    by decide +kernel⟩
  all_goals
    simp only [exRecipeAB, Recipe.components, List.cons_append, List.nil_append, List.mem_cons, List.not_mem_nil,
      or_false] at hc
  · rcases hc with rfl | rfl
    exacts [exA_ok, exB_ok]
  · rcases hc with rfl | rfl <;> decide

end Reveaal
