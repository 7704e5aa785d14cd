import Verif.Lemmas.Product
import Mathlib.Data.List.Pairwise

/-!
# Products seen from one participant

`Join s p q J` says that `s` is the joint behaviour of `p` and `q`, where `J x a b` means that the location
`x` of `s` is made of the location `a` of `p` and the location `b` of `q`.  It is symmetric in `p` and `q`,
so facts about the left operand of a composition or conjunction are also facts about the right one.
-/

namespace Reveaal
open ZoneLib
variable {F : Type} [ZoneLib F]

namespace Sys

/-- A move can be repeated from a valuation that agrees on the clocks of the system. -/
theorem act_transport {s : Sys F} (hs : s.Good) {x x' : LocTree F} {v v' w : Val} {a : String}
    (hx : s.IsLoc x) (hv : Valid (dim F) v) (hw : Valid (dim F) w) (hag : ∀ i ∈ s.clocks, v i = w i)
    (h : s.ts.Act x v a x' v') : ∃ w', s.ts.Act x w a x' w' ∧ ∀ i ∈ s.clocks, v' i = w' i := by
  obtain ⟨ha, trans, htr, t, ht, hc, rfl, rfl⟩ := h
  obtain ⟨ts, h1, h2⟩ := hs.next x a hx ha
  have htr' : s.next x a = .ok trans := htr
  rw [h1] at htr'; cases htr'
  exact ⟨_, ⟨ha, _, htr, t, ht, (h2 t ht).2.canTake_congr hv hw hag hc, rfl, rfl⟩,
    fun i hi => runUpdates_congr_at (hag i hi)⟩

theorem act_valid {s : Sys F} (hs : s.Good) {x x' : LocTree F} {v v' : Val} {a : String}
    (hx : s.IsLoc x) (hv : Valid (dim F) v) (h : s.ts.Act x v a x' v') :
    s.IsLoc x' ∧ Valid (dim F) v' := by
  obtain ⟨ha, trans, htr, t, ht, hc, rfl, rfl⟩ := h
  obtain ⟨ts, h1, h2⟩ := hs.next x a hx ha
  have htr' : s.next x a = .ok trans := htr
  rw [h1] at htr'; cases htr'
  exact ⟨(h2 t ht).1, (h2 t ht).2.run_valid hv⟩

/-- Clocks the system does not have are not changed. -/
theorem act_untouched {s : Sys F} (hs : s.Good) {x x' : LocTree F} {v v' : Val} {a : String}
    (hx : s.IsLoc x) (h : s.ts.Act x v a x' v') : ∀ i, i ∉ s.clocks → v' i = v i := by
  obtain ⟨ha, trans, htr, t, ht, hc, rfl, rfl⟩ := h
  obtain ⟨ts, h1, h2⟩ := hs.next x a hx ha
  have htr' : s.next x a = .ok trans := htr
  rw [h1] at htr'; cases htr'
  exact fun i hi => (h2 t ht).2.untouched hi

/-- What can be taken has its target invariant fulfilled. -/
theorem act_inv {s : Sys F} {x x' : LocTree F} {v v' : Val} {a : String}
    (h : s.ts.Act x v a x' v') : v' ∈ InvSet x' := by
  obtain ⟨_, _, _, t, _, hc, rfl, rfl⟩ := h
  exact hc.2

/-- In a deterministic system a move is determined by its action. -/
theorem act_unique {s : Sys F} (hdet : s.ts.Deterministic) {x x1 x2 : LocTree F} {v v1 v2 : Val}
    {a : String} (hr : s.ts.Reach x v) (h1 : s.ts.Act x v a x1 v1) (h2 : s.ts.Act x v a x2 v2) :
    x1 = x2 ∧ v1 = v2 := by
  obtain ⟨ha, trans, htr, t, ht, hc, rfl, rfl⟩ := h1
  obtain ⟨_, trans', htr', t', ht', hc', rfl, rfl⟩ := h2
  rw [htr] at htr'; cases htr'
  have := hdet x v hr a trans ha htr
  by_cases he : t = t'
  · subst he; exact ⟨rfl, rfl⟩
  · let _ : Std.Symm fun t t' : Transition F => ¬ (CanTake t v ∧ CanTake t' v) :=
      ⟨fun _ _ h hh => h hh.symm⟩
    exact absurd ⟨hc, hc'⟩ (this.forall ht ht' he)

/-- `s` is the joint behaviour of `p` and `q`. -/
structure Join (s p q : Sys F) (J : LocTree F → LocTree F → LocTree F → Prop) : Prop where
  clocks : ∀ i, i ∈ s.clocks ↔ i ∈ p.clocks ∨ i ∈ q.clocks
  init : ∀ x, s.initialLoc = .ok (some x) → ∃ a b, p.initialLoc = .ok (some a) ∧
    q.initialLoc = .ok (some b) ∧ J x a b
  initNone : s.initialLoc = .ok none → p.initialLoc = .ok none ∨ q.initialLoc = .ok none
  locs : ∀ x, s.IsLoc x ↔ ∃ a b, p.IsLoc a ∧ q.IsLoc b ∧ J x a b
  total : ∀ a b, ∃ x, J x a b
  inv : ∀ {x a b v}, J x a b → (v ∈ InvSet x ↔ v ∈ InvSet a ∧ v ∈ InvSet b)
  act : ∀ {x a b x' v v' o}, J x a b → p.IsLoc a → q.IsLoc b → Valid (dim F) v → s.hasAction o = true →
    (s.ts.Act x v o x' v' ↔ ∃ a' b', J x' a' b' ∧ p.Participates a v o a' v' ∧
      q.Participates b v o b' v' ∧ ∀ i ∉ s.clocks, v' i = v i)

theorem prod_init_none {l r : Sys F} {c : CompType} (h : (do
      match ← l.initialLoc with
      | none => .ok none
      | some a =>
        match ← r.initialLoc with
        | none => .ok none
        | some b => do
          let x ← LocTree.compose a b c
          .ok (some x) : Res (Option (LocTree F))) = .ok none) :
    l.initialLoc = .ok none ∨ r.initialLoc = .ok none := by
  obtain ⟨o, h1, h⟩ := bind_ok h
  cases o with
  | none => exact .inl h1
  | some a =>
    obtain ⟨o2, h2, h⟩ := bind_ok h
    cases o2 with
    | none => exact .inr h2
    | some b =>
      obtain ⟨x, _, h⟩ := bind_ok h
      cases h

theorem compose_total {c : CompType} (hc : c.IsProd) (a b : LocTree F) :
    ∃ x, LocTree.compose a b c = .ok x := by
  rcases hc with rfl | rfl <;> exact ⟨_, rfl⟩

theorem IsProd.join {s l r : Sys F} {c : CompType} (h : s.IsProd l r c) (hl : l.Good) (hr : r.Good)
    (hdis : l.DisjointClocks r)
    (hn : s.initialLoc = .ok none → l.initialLoc = .ok none ∨ r.initialLoc = .ok none) :
    s.Join l r fun x a b => LocTree.compose a b c = .ok x where
  clocks := h.clocks
  init := h.init
  initNone := hn
  locs := h.locs
  total := compose_total h.kind
  inv := fun hx => mem_compose_inv hx
  act := fun hx ha hb hv ho => h.act_iff hl hr hdis ha hb hx hv ho

theorem Join.swap {s p q : Sys F} {J : LocTree F → LocTree F → LocTree F → Prop} (h : s.Join p q J) :
    s.Join q p fun x a b => J x b a where
  clocks := fun i => by rw [h.clocks]; tauto
  init := fun x hx => by
    obtain ⟨a, b, h1, h2, h3⟩ := h.init x hx
    exact ⟨b, a, h2, h1, h3⟩
  initNone := fun hn => (h.initNone hn).symm
  locs := fun x => by
    rw [h.locs]
    constructor
    · rintro ⟨a, b, h1, h2, h3⟩; exact ⟨b, a, h2, h1, h3⟩
    · rintro ⟨a, b, h1, h2, h3⟩; exact ⟨b, a, h2, h1, h3⟩
  total := fun a b => h.total b a
  inv := fun hx => by rw [h.inv hx]; tauto
  act := fun hx ha hb hv ho => by
    rw [h.act hx hb ha hv ho]
    constructor
    · rintro ⟨a, b, h1, h2, h3, h4⟩; exact ⟨b, a, h1, h3, h2, h4⟩
    · rintro ⟨a, b, h1, h2, h3, h4⟩; exact ⟨b, a, h1, h3, h2, h4⟩

theorem join_composition {l r s : Sys F} (hl : l.Good) (hr : r.Good) (hdis : l.DisjointClocks r)
    (h : newComposition l r = .ok s) :
    s.Join l r fun x a b => LocTree.compose a b .composition = .ok x := by
  refine (isProd_composition h).join hl hr hdis ?_
  obtain ⟨_, rfl⟩ := newComposition_eq h
  exact prod_init_none

theorem join_conjunction {l r s : Sys F} (hl : l.Good) (hr : r.Good) (hdis : l.DisjointClocks r)
    (h : newConjunctionUnchecked l r = .ok s) :
    s.Join l r fun x a b => LocTree.compose a b .conjunction = .ok x := by
  refine (isProd_conjunction h).join hl hr hdis ?_
  obtain ⟨_, _, rfl⟩ := newConjunction_eq h
  exact prod_init_none

/-- Two participants that both know an action and can perform it do so together. -/
theorem Join.sync {s p q : Sys F} {J : LocTree F → LocTree F → LocTree F → Prop} (h : s.Join p q J)
    (hq : q.Good) (hdis : p.DisjointClocks q) {x a b a' b' : LocTree F} {v va vb : Val}
    {o : String} (hx : J x a b) (ha : p.IsLoc a) (hb : q.IsLoc b) (hv : Valid (dim F) v)
    (hs : s.hasAction o = true) (hpa : p.ts.Act a v o a' va) (hqb : q.ts.Act b v o b' vb) :
    ∃ x' v', s.ts.Act x v o x' v' ∧ J x' a' b' ∧ (∀ i ∈ p.clocks, v' i = va i) ∧
      ∀ i ∈ q.clocks, v' i = vb i := by
  obtain ⟨x', hx'⟩ := h.total a' b'
  classical
  let v' : Val := fun i => if i ∈ p.clocks then va i else vb i
  have h1 : ∀ i ∈ p.clocks, v' i = va i := fun i hi => by simp [v', hi]
  have h2 : ∀ i ∈ q.clocks, v' i = vb i := fun i hi => by
    have : i ∉ p.clocks := fun hc => hdis i hc hi
    simp [v', this]
  have h3 : ∀ i ∉ s.clocks, v' i = v i := fun i hi => by
    rw [h.clocks] at hi
    push Not at hi
    simp only [v', hi.1, if_false]
    exact act_untouched hq hb hqb i hi.2
  refine ⟨x', v', (h.act hx ha hb hv hs).2 ⟨a', b', hx', ⟨fun _ => ⟨va, hpa, h1⟩, fun hc => ?_⟩,
    ⟨fun _ => ⟨vb, hqb, h2⟩, fun hc => ?_⟩, h3⟩, hx', h1, h2⟩
  · have := hpa.1; change p.hasAction o = true at this; rw [this] at hc; cases hc
  · have := hqb.1; change q.hasAction o = true at this; rw [this] at hc; cases hc

/-- An action only the first participant knows is performed by it alone. -/
theorem Join.alone {s p q : Sys F} {J : LocTree F → LocTree F → LocTree F → Prop} (h : s.Join p q J)
    (hp : p.Good) {x a b a' : LocTree F} {v va : Val} (hdis : p.DisjointClocks q)
    {o : String} (hx : J x a b) (ha : p.IsLoc a) (hb : q.IsLoc b) (hv : Valid (dim F) v)
    (hs : s.hasAction o = true) (hpa : p.ts.Act a v o a' va) (hq : q.hasAction o = false)
    (hbi : v ∈ InvSet b) : ∃ x', s.ts.Act x v o x' va ∧ J x' a' b := by
  obtain ⟨x', hx'⟩ := h.total a' b
  refine ⟨x', (h.act hx ha hb hv hs).2 ⟨a', b, hx', ⟨fun _ => ⟨va, hpa, fun _ _ => rfl⟩, fun hc => ?_⟩,
    ⟨fun hc => ?_, fun _ => ⟨rfl, hbi, fun i hi => ?_⟩⟩, fun i hi => ?_⟩, hx'⟩
  · have := hpa.1; change p.hasAction o = true at this; rw [this] at hc; cases hc
  · rw [hq] at hc; cases hc
  · exact act_untouched hp ha hpa i fun hc => hdis i hc hi
  · rw [h.clocks] at hi
    exact act_untouched hp ha hpa i fun hc => hi (.inl hc)

end Sys

/-- `CanDelay` in a location of a product -/
theorem Sys.Join.canDelay {s p q : Sys F} {J : LocTree F → LocTree F → LocTree F → Prop}
    (h : s.Join p q J) {x a b : LocTree F} {v : Val} {d : ℝ} (hx : J x a b) :
    TS.CanDelay x v d ↔ TS.CanDelay a v d ∧ TS.CanDelay b v d := by
  unfold TS.CanDelay
  constructor
  · rintro ⟨h0, h1⟩
    exact ⟨⟨h0, fun d' a b => ((h.inv hx).1 (h1 d' a b)).1⟩, h0, fun d' a b => ((h.inv hx).1 (h1 d' a b)).2⟩
  · rintro ⟨⟨h0, h1⟩, _, h2⟩
    exact ⟨h0, fun d' a b => (h.inv hx).2 ⟨h1 d' a b, h2 d' a b⟩⟩

/-- A concrete state `(x, y)` of a product seen as a pair of concrete states of its participants, each with
a valuation of its own. -/
structure Located (p q : Sys F) (J : LocTree F → LocTree F → LocTree F → Prop) (x : LocTree F) (y : Val)
    (a : LocTree F) (w : Val) (b : LocTree F) (z : Val) : Prop where
  loc : J x a b
  left : p.IsLoc a
  right : q.IsLoc b
  valid : Valid (dim F) y
  validL : Valid (dim F) w
  validR : Valid (dim F) z
  agreeL : ∀ i ∈ p.clocks, y i = w i
  agreeR : ∀ i ∈ q.clocks, y i = z i

namespace Located
variable {s p q : Sys F} {J : LocTree F → LocTree F → LocTree F → Prop} {x a b : LocTree F} {y w z : Val}

theorem swap (h : Located p q J x y a w b z) : Located q p (fun x a b => J x b a) x y b z a w :=
  ⟨h.loc, h.right, h.left, h.valid, h.validR, h.validL, h.agreeR, h.agreeL⟩

/-- Both know the action. -/
theorem act_both (h : Located p q J x y a w b z) (hj : s.Join p q J) (hs : s.Good) (hp : p.Good)
    (hq : q.Good) {o : String} {x' : LocTree F} {y' : Val} (hx : s.IsLoc x) (hact : s.ts.Act x y o x' y')
    (h1 : p.hasAction o = true) (h2 : q.hasAction o = true) :
    ∃ a' w' b' z', p.ts.Act a w o a' w' ∧ q.ts.Act b z o b' z' ∧ Located p q J x' y' a' w' b' z' := by
  obtain ⟨a', b', hx', pp, pq, _⟩ := (hj.act h.loc h.left h.right h.valid hact.1).1 hact
  obtain ⟨w1, e1, g1⟩ := pp.1 h1
  obtain ⟨z1, e2, g2⟩ := pq.1 h2
  obtain ⟨w', e3, g3⟩ := Sys.act_transport hp h.left h.valid h.validL h.agreeL e1
  obtain ⟨z', e4, g4⟩ := Sys.act_transport hq h.right h.valid h.validR h.agreeR e2
  exact ⟨a', w', b', z', e3, e4, hx', (Sys.act_valid hp h.left h.validL e3).1,
    (Sys.act_valid hq h.right h.validR e4).1, (Sys.act_valid hs hx h.valid hact).2,
    (Sys.act_valid hp h.left h.validL e3).2, (Sys.act_valid hq h.right h.validR e4).2,
    fun i hi => (g1 i hi).trans (g3 i hi), fun i hi => (g2 i hi).trans (g4 i hi)⟩

/-- Only the first knows the action. -/
theorem act_left (h : Located p q J x y a w b z) (hj : s.Join p q J) (hs : s.Good) (hp : p.Good)
    (hq : q.Good) {o : String} {x' : LocTree F} {y' : Val} (hx : s.IsLoc x) (hact : s.ts.Act x y o x' y')
    (h1 : p.hasAction o = true) (h2 : q.hasAction o = false) :
    ∃ a' w', p.ts.Act a w o a' w' ∧ z ∈ InvSet b ∧ Located p q J x' y' a' w' b z := by
  obtain ⟨a', b', hx', pp, pq, _⟩ := (hj.act h.loc h.left h.right h.valid hact.1).1 hact
  obtain ⟨w1, e1, g1⟩ := pp.1 h1
  obtain ⟨rfl, hb, g2⟩ := pq.2 h2
  have hb' := hq.invLocal _ h.right _ _ h.valid h.validR h.agreeR hb
  obtain ⟨w', e3, g3⟩ := Sys.act_transport hp h.left h.valid h.validL h.agreeL e1
  exact ⟨a', w', e3, hb', hx', (Sys.act_valid hp h.left h.validL e3).1, h.right,
    (Sys.act_valid hs hx h.valid hact).2, (Sys.act_valid hp h.left h.validL e3).2, h.validR,
    fun i hi => (g1 i hi).trans (g3 i hi), fun i hi => (g2 i hi).trans (h.agreeR i hi)⟩

/-- Both perform the action. -/
theorem sync (h : Located p q J x y a w b z) (hj : s.Join p q J) (hs : s.Good) (hp : p.Good)
    (hq : q.Good) (hdis : p.DisjointClocks q) {o : String} {a' b' : LocTree F} {w' z' : Val} (hx : s.IsLoc x)
    (ho : s.hasAction o = true) (h1 : p.ts.Act a w o a' w') (h2 : q.ts.Act b z o b' z') :
    ∃ x' y', s.ts.Act x y o x' y' ∧ Located p q J x' y' a' w' b' z' := by
  obtain ⟨w1, e1, g1⟩ := Sys.act_transport hp h.left h.validL h.valid (fun i hi => (h.agreeL i hi).symm) h1
  obtain ⟨z1, e2, g2⟩ := Sys.act_transport hq h.right h.validR h.valid (fun i hi => (h.agreeR i hi).symm) h2
  obtain ⟨x', y', e3, hx', g3, g4⟩ := hj.sync hq hdis h.loc h.left h.right h.valid ho e1 e2
  exact ⟨x', y', e3, hx', (Sys.act_valid hp h.left h.validL h1).1, (Sys.act_valid hq h.right h.validR h2).1,
    (Sys.act_valid hs hx h.valid e3).2, (Sys.act_valid hp h.left h.validL h1).2,
    (Sys.act_valid hq h.right h.validR h2).2, fun i hi => (g3 i hi).trans (g1 i hi).symm,
    fun i hi => (g4 i hi).trans (g2 i hi).symm⟩

/-- The first performs an action the second does not know. -/
theorem alone (h : Located p q J x y a w b z) (hj : s.Join p q J) (hs : s.Good) (hp : p.Good)
    (hq : q.Good) (hdis : p.DisjointClocks q) {o : String} {a' : LocTree F} {w' : Val} (hx : s.IsLoc x)
    (ho : s.hasAction o = true) (h1 : p.ts.Act a w o a' w') (h2 : q.hasAction o = false)
    (hb : z ∈ InvSet b) : ∃ x' y', s.ts.Act x y o x' y' ∧ Located p q J x' y' a' w' b z := by
  obtain ⟨w1, e1, g1⟩ := Sys.act_transport hp h.left h.validL h.valid (fun i hi => (h.agreeL i hi).symm) h1
  have hb' := hq.invLocal b h.right _ _ h.validR h.valid (fun i hi => (h.agreeR i hi).symm) hb
  obtain ⟨x', e3, hx'⟩ := hj.alone hp hdis h.loc h.left h.right h.valid ho e1 h2 hb'
  exact ⟨x', w1, e3, hx', (Sys.act_valid hp h.left h.validL h1).1, h.right,
    (Sys.act_valid hs hx h.valid e3).2, (Sys.act_valid hp h.left h.validL h1).2, h.validR,
    fun i hi => (g1 i hi).symm, fun i hi => by
      rw [Sys.act_untouched hp h.left e1 i fun hc => hdis i hc hi]; exact h.agreeR i hi⟩

theorem canDelay (h : Located p q J x y a w b z) (hj : s.Join p q J) (hp : p.Good) (hq : q.Good) {d : ℝ} :
    TS.CanDelay x y d ↔ TS.CanDelay a w d ∧ TS.CanDelay b z d := by
  rw [hj.canDelay h.loc]
  have key : ∀ {C : List Nat} {l : LocTree F} (_ : Local (dim F) C (InvSet l)) {v w : Val}
      (_ : Valid (dim F) v) (_ : Valid (dim F) w) (_ : ∀ i ∈ C, v i = w i) {d : ℝ}
      (_ : TS.CanDelay l v d), TS.CanDelay l w d := fun hl _ _ hv hw h _ hd =>
    ⟨hd.1, fun d' h1 h2 => hl _ _ (delay_valid hv h1) (delay_valid hw h1)
      (fun i hi => Sys.delay_agree (h i hi)) (hd.2 d' h1 h2)⟩
  constructor
  · rintro ⟨h1, h2⟩
    exact ⟨key (hp.invLocal a h.left) h.valid h.validL h.agreeL h1,
      key (hq.invLocal b h.right) h.valid h.validR h.agreeR h2⟩
  · rintro ⟨h1, h2⟩
    exact ⟨key (hp.invLocal a h.left) h.validL h.valid (fun i hi => (h.agreeL i hi).symm) h1,
      key (hq.invLocal b h.right) h.validR h.valid (fun i hi => (h.agreeR i hi).symm) h2⟩

theorem delayed (h : Located p q J x y a w b z) {d : ℝ} (hd : 0 ≤ d) :
    Located p q J x (delay (dim F) y d) a (delay (dim F) w d) b (delay (dim F) z d) :=
  ⟨h.loc, h.left, h.right, delay_valid h.valid hd, delay_valid h.validL hd, delay_valid h.validR hd,
    fun i hi => Sys.delay_agree (h.agreeL i hi), fun i hi => Sys.delay_agree (h.agreeR i hi)⟩

end Located

end Reveaal
