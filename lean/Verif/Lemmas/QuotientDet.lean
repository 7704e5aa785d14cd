import Verif.Lemmas.Join
import Verif.Props.C12
import Verif.Props.C39
import Verif.Spec.Adjoint

/-!
# The states a quotient gets into, seen from its operands

The pairs of locations of a quotient have no invariant, so a quotient gets into states its operands do not
get into.  As long as the invariant of an operand holds, though, that operand could have got there by
itself, if its invariants hold earlier whenever they hold later.
-/

namespace Reveaal
open ZoneLib
variable {F : Type} [ZoneLib F]

theorem pastClosed_errorLoc {c : Nat} (h0 : 0 < c) (hn : c < dim F) : PastClosed (LocTree.errorLoc c : LocTree F) := by
  intro v d hv hd hm
  rw [invSet_errorLoc h0 hn] at hm ⊢
  refine ⟨hv, ?_⟩
  have h1 := hm.2
  have h2 := hv.2.1 c
  simp only [delay, h0, hn, and_self, if_true] at h1
  linarith

/-- What holds later holds earlier. -/
def CompComp.pastB (x : CompComp F) : Bool :=
  x.locations.all fun p => (p.2.inv.map fun i => isEmpty (subtraction (down i) i)).getD true

theorem CompComp.past_of_pastB {x : CompComp F} (h : x.pastB = true) :
    ∀ l, (Sys.comp x).IsLoc l → PastClosed l := by
  rintro l ⟨p, hp, rfl⟩ v d hv hd hm i hi
  have := List.all_eq_true.1 h p hp
  rw [hi] at this
  have he := (ZoneLib.isEmpty_iff _).1 this
  by_contra hn
  have : v ∈ den (subtraction (down i) i) := by
    rw [den_subtraction]
    exact ⟨by rw [den_down]; exact ⟨hv, d, hd, hm i hi⟩, hn⟩
  rw [he] at this; cases this

theorem Sys.initial_isLoc {y : Sys F} (hy : y.Good) {l : LocTree F} (hl : y.initialLoc = .ok (some l)) :
    y.IsLoc l := by
  obtain ⟨o, e1, e2⟩ := hy.initial
  rw [hl] at e1; cases e1; exact e2 _ rfl

omit [ZoneLib F] in
theorem noConflict_append {us ws : List CUpdate} {C D : List Nat} (h1 : NoConflict us) (h2 : NoConflict ws)
    (c1 : ∀ u ∈ us, u.clock ∈ C) (c2 : ∀ u ∈ ws, u.clock ∈ D) (hdis : ∀ i ∈ C, i ∉ D) :
    NoConflict (us ++ ws) := by
  intro u hu w hw e
  rcases List.mem_append.1 hu with hu | hu <;> rcases List.mem_append.1 hw with hw | hw
  · exact h1 u hu w hw e
  · exact absurd (e ▸ c2 w hw) (hdis _ (c1 u hu))
  · exact absurd (c2 u hu) (hdis _ (e ▸ c1 w hw))
  · exact h2 u hu w hw e

namespace Sys

theorem CalmUpdates.agree {s : Sys F} (hs : s.Good) (h : s.CalmUpdates) : s.ts.UpdatesAgree :=
  fun l _ a trans hr _ hn => h l a trans (hs.reach hr).1 hn

theorem CalmUpdates.available {s : Sys F} (h : s.CalmUpdates) {l : LocTree F} (hl : s.IsLoc l) {a : String}
    {ts : List (Transition F)} (hts : s.ifAvailable a (s.next l a) = .ok ts) : ∀ t ∈ ts, NoConflict t.updates := by
  intro t ht
  have ha := ifAvailable_mem_hasAction hts ht
  unfold ifAvailable at hts
  rw [if_pos ha] at hts
  exact h l a ts hl hts t ht

theorem IsProd.calm {s l r : Sys F} {c : CompType} (h : s.IsProd l r c) (hl : l.Good) (hr : r.Good)
    (hloc : ∀ x, s.IsLoc x → ∃ a b, l.IsLoc a ∧ r.IsLoc b ∧ LocTree.compose a b c = .ok x)
    (hact : ∀ x a ts, s.next x a = .ok ts → s.hasAction a = true) (hdis : l.DisjointClocks r)
    (cl : l.CalmUpdates) (cr : r.CalmUpdates) : s.CalmUpdates := by
  intro x a trans hx htr t ht
  have ha := hact x a trans htr
  obtain ⟨xl, xr, hxl, hxr, hx⟩ := hloc x hx
  obtain ⟨ls, hls, gls⟩ := sideMoves_good hl hxl a
  obtain ⟨rs, hrs, grs⟩ := sideMoves_good hr hxr a
  rw [h.moves x xl xr a ha hx, hls, hrs] at htr
  simp only [ok_bind] at htr
  obtain ⟨p, hp, hc⟩ := forall2_mem_right (mapM_ok.1 htr) t ht
  obtain ⟨y, hy, hp⟩ := List.mem_flatMap.1 hp
  obtain ⟨z, hz, rfl⟩ := List.mem_map.1 hp
  have one : ∀ {q : Sys F} {xq : LocTree F} {ms : List (Transition F)}, q.CalmUpdates →
      q.IsLoc xq → q.sideMoves xq a = .ok ms → ∀ m ∈ ms, NoConflict m.updates := by
    intro q xq ms hq hl hms m hm
    unfold sideMoves at hms
    split at hms
    · exact hq xq a ms hl hms m hm
    · cases hms
      rw [List.mem_singleton] at hm; subst hm
      intro u hu; cases hu
  obtain ⟨i, k, hk, h'⟩ := combine_ok (l := y) (r := z) h.kind
  rw [h'] at hc; cases hc
  exact noConflict_append (one cl hxl hls y hy) (one cr hxr hrs z hz) (gls y hy).2.own (grs z hz).2.own hdis

theorem calm_composition {l r s : Sys F} (h : newComposition l r = .ok s) (hl : l.Good) (hr : r.Good)
    (hdis : l.DisjointClocks r) (cl : l.CalmUpdates) (cr : r.CalmUpdates) : s.CalmUpdates := by
  refine (isProd_composition h).calm hl hr ?_ ?_ hdis cl cr
  · obtain ⟨_, rfl⟩ := newComposition_eq h
    exact fun x hx => hx
  · obtain ⟨_, rfl⟩ := newComposition_eq h
    intro x a ts hn
    by_contra hc
    unfold next at hn
    rw [if_pos (by simpa [hasAction, inputs_composition, outputs_composition] using hc)] at hn
    cases hn

theorem calm_conjunction {l r s : Sys F} (h : newConjunctionUnchecked l r = .ok s) (hl : l.Good) (hr : r.Good)
    (hdis : l.DisjointClocks r) (cl : l.CalmUpdates) (cr : r.CalmUpdates) : s.CalmUpdates := by
  refine (isProd_conjunction h).calm hl hr ?_ ?_ hdis cl cr
  · obtain ⟨_, _, rfl⟩ := newConjunction_eq h
    exact fun x hx => hx
  · obtain ⟨_, _, rfl⟩ := newConjunction_eq h
    intro x a ts hn
    by_contra hc
    unfold next at hn
    rw [if_pos (by simpa [hasAction, inputs_conjunction, outputs_conjunction] using hc)] at hn
    cases hn

/-- If the invariant of `l` holds, the system gets into a state that looks like this one. -/
def Visited (s : Sys F) (l : LocTree F) (v : Val) : Prop :=
  v ∈ InvSet l → ∃ w, s.ts.Reach l w ∧ ∀ i ∈ s.clocks, v i = w i

theorem Visited.delay {s : Sys F} (hs : s.Good) {l : LocTree F} (hl : s.IsLoc l) (hp : PastClosed l) {v : Val}
    (hv : Valid (dim F) v) (h : s.Visited l v) {d : ℝ} (hd : 0 ≤ d) : s.Visited l (delay (dim F) v d) := by
  intro hm
  obtain ⟨w, hw, hag⟩ := h (hp v d hv hd hm)
  refine ⟨_, .delay hw ⟨hd, fun d' h0 h1 => ?_⟩, fun i hi => delay_agree (hag i hi)⟩
  refine hs.invLocal l hl _ _ (delay_valid hv h0) (delay_valid (hs.reach hw).2 h0)
    (fun i hi => delay_agree (hag i hi)) ?_
  refine hp _ (d - d') (delay_valid hv h0) (by linarith) ?_
  rw [delay_add, add_sub_cancel]; exact hm

theorem Visited.same {s : Sys F} (hs : s.Good) {l : LocTree F} (hl : s.IsLoc l) {v v' : Val}
    (hv : Valid (dim F) v) (hv' : Valid (dim F) v') (h : s.Visited l v) (e : ∀ i ∈ s.clocks, v' i = v i) :
    s.Visited l v' := by
  intro hm
  obtain ⟨w, hw, hag⟩ := h (hs.invLocal l hl _ _ hv' hv e hm)
  exact ⟨w, hw, fun i hi => (e i hi).trans (hag i hi)⟩

theorem Visited.act {s : Sys F} (hs : s.Good) {l l' : LocTree F} {v v1 v' : Val} {a : String}
    (hv : Valid (dim F) v) (h : s.Visited l v) (hm : v ∈ InvSet l) (hact : s.ts.Act l v a l' v1)
    (e : ∀ i ∈ s.clocks, v' i = v1 i) : s.Visited l' v' := by
  intro _
  obtain ⟨w, hw, hag⟩ := h hm
  obtain ⟨w', hw', hag'⟩ := act_transport hs (hs.reach hw).1 hv (hs.reach hw).2 hag hact
  exact ⟨w', .act hw hw', fun i hi => (e i hi).trans (hag' i hi)⟩

/-- The transitions of a side of a quotient that can be taken while its invariant holds. -/
theorem Visited.pairwise {s : Sys F} (hs : s.Good) (hc : s.CalmUpdates) (hdet : s.ts.Deterministic)
    {l : LocTree F} (hl : s.IsLoc l) {v : Val} (hv : Valid (dim F) v) (h : s.Visited l v) {a : String}
    {ts : List (Transition F)} (hts : s.ifAvailable a (s.next l a) = .ok ts) :
    ts.Pairwise fun t t' => ¬ (v ∈ den (allowedFed l t) ∧ v ∈ den (allowedFed l t')) := by
  by_cases ha : s.hasAction a = true
  · have hn : s.next l a = .ok ts := by unfold ifAvailable at hts; rwa [if_pos ha] at hts
    have hg := hs.next_ok hl ha hn
    by_cases hm : v ∈ InvSet l
    · obtain ⟨w, hw, hag⟩ := h hm
      refine (hdet l w hw a ts ha hn).imp_of_mem fun {t t'} ht ht' h hc' => h ?_
      have e := (mem_allowedFed (hg t ht).2 (hc l a ts hl hn t ht)).1 hc'.1
      have e' := (mem_allowedFed (hg t' ht').2 (hc l a ts hl hn t' ht')).1 hc'.2
      exact ⟨(hg t ht).2.canTake_congr hv (hs.reach hw).2 hag e.2,
        (hg t' ht').2.canTake_congr hv (hs.reach hw).2 hag e'.2⟩
    · refine List.pairwise_of_forall_mem_list fun t ht t' _ hc' => hm ?_
      exact ((mem_allowedFed (hg t ht).2 (hc l a ts hl hn t ht)).1 hc'.1).1
  · unfold ifAvailable at hts
    rw [if_neg ha] at hts
    cases hts
    exact List.Pairwise.nil

/-- What is used of the operands of a quotient. -/
structure QuotParts (T S : Sys F) (clock : Nat) : Prop where
  goodT : T.Good
  goodS : S.Good
  h0 : 0 < clock
  hn : clock < dim F
  dis : T.DisjointClocks S
  calmT : T.CalmUpdates
  calmS : S.CalmUpdates
  pastT : ∀ l, T.IsLoc l → PastClosed l
  pastS : ∀ l, S.IsLoc l → PastClosed l

/-- A state of a quotient: a pair of states its operands get into as long as their invariants hold, or one
of the two special locations. -/
def QuotState (T S : Sys F) (clock : Nat) (x : LocTree F) (v : Val) : Prop :=
  Valid (dim F) v ∧ ((∃ lt ls, x = LocTree.merge lt ls ∧ T.IsLoc lt ∧ S.IsLoc ls ∧ T.Visited lt v ∧ S.Visited ls v) ∨
    x = LocTree.universalLoc ∨ x = LocTree.errorLoc clock)

variable {T S Q : Sys F} {clock : Nat}

theorem QuotParts.state (h : QuotParts T S clock) (hQ : newQuotientUnchecked T S clock = .ok Q) {x : LocTree F}
    {v : Val} (hr : Q.ts.Reach x v) : QuotState T S clock x v := by
  have hgood := good_quotient h.goodT h.goodS h.h0 h.hn hQ
  obtain ⟨_, rfl⟩ := newQuotient_eq hQ
  induction hr with
  | init hi hz =>
    refine ⟨zeroVal_valid, .inl ?_⟩
    obtain ⟨o1, e1, i1⟩ := h.goodT.initial
    obtain ⟨o2, e2, i2⟩ := h.goodS.initial
    have hi : initialLoc _ = _ := hi
    unfold initialLoc at hi
    rw [e1, e2] at hi
    cases o1 with
    | none => cases o2 <;> cases hi
    | some lt =>
    cases o2 with
    | none => cases hi
    | some ls =>
      simp only [ok_bind, Except.ok.injEq, Option.some.injEq] at hi
      exact ⟨lt, ls, hi.symm, i1 _ rfl, i2 _ rfl, fun hm => ⟨_, .init e1 hm, fun _ _ => rfl⟩,
        fun hm => ⟨_, .init e2 hm, fun _ _ => rfl⟩⟩
  | @act x v a x' v' hre hact ih =>
    obtain ⟨hv, ih⟩ := ih
    refine ⟨(hgood.reach (.act hre hact)).2, ?_⟩
    have hv' := (hgood.reach (.act hre hact)).2
    rcases ih with ⟨lt, ls, rfl, hlt, hls, vT, vS⟩ | rfl | rfl
    · obtain ⟨tt, st, htt, hst, gt, gs, hnext⟩ := quotient_pair_next h.goodT h.goodS hlt hls hact.1
      obtain ⟨us, hm, rfl⟩ := (quotient_act h.h0 h.hn hact.1 hnext hv).1 hact
      have et : ∀ t ∈ tt, v ∈ den (allowedFed lt t) → v ∈ InvSet lt ∧ T.ts.Act lt v a t.target (runUpdates t.updates v) := by
        intro t ht hm
        have := (mem_allowedFed (gt t ht).2 (h.calmT.available hlt htt t ht)).1 hm
        exact ⟨this.1, (ifAvailable_act htt).2 ⟨ifAvailable_mem_hasAction htt ht, t, ht, this.2, rfl, rfl⟩⟩
      have es : ∀ t ∈ st, v ∈ den (allowedFed ls t) → v ∈ InvSet ls ∧ S.ts.Act ls v a t.target (runUpdates t.updates v) := by
        intro t ht hm
        have := (mem_allowedFed (gs t ht).2 (h.calmS.available hls hst t ht)).1 hm
        exact ⟨this.1, (ifAvailable_act hst).2 ⟨ifAvailable_mem_hasAction hst ht, t, ht, this.2, rfl, rfl⟩⟩
      rcases (mem_quotientMoves hv).1 hm with ⟨h1, h2, t, ht, s, hs, h3, h4, rfl, rfl⟩ |
        ⟨h1, h2, s, hs, h3, rfl, rfl⟩ | ⟨h1, rfl, rfl⟩ | ⟨h1, h2, h3, h4, rfl, rfl⟩ |
        ⟨h1, h2, h3, rfl, rfl⟩ | ⟨h1, h2, t, ht, h3, h4, rfl, rfl⟩
      · obtain ⟨i1, a1⟩ := et t ht h3
        obtain ⟨i2, a2⟩ := es s hs h4
        refine .inl ⟨_, _, rfl, (gt t ht).1, (gs s hs).1, vT.act h.goodT hv i1 a1 ?_, vS.act h.goodS hv i2 a2 ?_⟩
        · intro i hi
          rw [runUpdates_append]; exact (gs s hs).2.untouched (h.dis i hi)
        · intro i hi
          rw [runUpdates_append]
          exact runUpdates_congr_at ((gt t ht).2.untouched fun h' => h.dis i h' hi)
      · obtain ⟨i2, a2⟩ := es s hs h3
        exact .inl ⟨_, _, rfl, hlt, (gs s hs).1, vT.same h.goodT hlt hv hv' fun i hi => (gs s hs).2.untouched (h.dis i hi),
          vS.act h.goodS hv i2 a2 fun _ _ => rfl⟩
      · exact .inr (.inl rfl)
      · exact .inr (.inr rfl)
      · exact .inr (.inr rfl)
      · obtain ⟨i1, a1⟩ := et t ht h3
        exact .inl ⟨_, _, rfl, (gt t ht).1, hls, vT.act h.goodT hv i1 a1 fun _ _ => rfl,
          vS.same h.goodS hls hv hv' fun i hi => (gt t ht).2.untouched fun h' => h.dis i h' hi⟩
    · exact .inr (.inl ((C39_universal hact.1 hv _ _).1 hact).1)
    · exact .inr (.inr (((C39_error h.h0 h.hn hact.1 hv _ _).1).1 hact).2.2.1)
  | @delay x v d hre hd ih =>
    obtain ⟨hv, ih⟩ := ih
    refine ⟨delay_valid hv hd.1, ?_⟩
    rcases ih with ⟨lt, ls, rfl, hlt, hls, vT, vS⟩ | rfl | rfl
    · exact .inl ⟨lt, ls, rfl, hlt, hls, vT.delay h.goodT hlt (h.pastT lt hlt) hv hd.1,
        vS.delay h.goodS hls (h.pastS ls hls) hv hd.1⟩
    · exact .inr (.inl rfl)
    · exact .inr (.inr rfl)

theorem pairwise_flatMap_map {α β γ : Type} {xs : List α} {ys : List β} {f : α → β → γ} {R : γ → γ → Prop}
    {P : α → Prop} {P' : β → Prop} (h1 : xs.Pairwise fun a b => ¬ (P a ∧ P b))
    (h2 : ys.Pairwise fun a b => ¬ (P' a ∧ P' b))
    (hR : ∀ a b a' b', ¬ (P a ∧ P' b ∧ P a' ∧ P' b') → R (f a b) (f a' b')) :
    (xs.flatMap fun a => ys.map (f a)).Pairwise R := by
  rw [List.pairwise_flatMap]
  refine ⟨fun a _ => ?_, h1.imp fun {a a'} h => ?_⟩
  · rw [List.pairwise_map]
    exact h2.imp fun {b b'} h => hR _ _ _ _ fun h' => h ⟨h'.2.1, h'.2.2.2⟩
  · intro x hx y hy
    obtain ⟨b, _, rfl⟩ := List.mem_map.1 hx
    obtain ⟨b', _, rfl⟩ := List.mem_map.1 hy
    exact hR _ _ _ _ fun h' => h ⟨h'.1, h'.2.2.1⟩

/-- Six groups of transitions, each with a fact that holds if one of its transitions can be taken; the facts exclude
each other. -/
theorem pairwise_groups {α : Type} {E : α → Prop} {l1 l2 l3 l4 l5 l6 : List α} {P1 P2 P3 P4 P5 P6 : Prop}
    (h1 : l1.Pairwise (fun a b => ¬ (E a ∧ E b)) ∧ ∀ x ∈ l1, E x → P1)
    (h2 : l2.Pairwise (fun a b => ¬ (E a ∧ E b)) ∧ ∀ x ∈ l2, E x → P2)
    (h3 : l3.Pairwise (fun a b => ¬ (E a ∧ E b)) ∧ ∀ x ∈ l3, E x → P3)
    (h4 : l4.Pairwise (fun a b => ¬ (E a ∧ E b)) ∧ ∀ x ∈ l4, E x → P4)
    (h5 : l5.Pairwise (fun a b => ¬ (E a ∧ E b)) ∧ ∀ x ∈ l5, E x → P5)
    (h6 : l6.Pairwise (fun a b => ¬ (E a ∧ E b)) ∧ ∀ x ∈ l6, E x → P6)
    (hx : ((P1 → P2 → False) ∧ (P1 → P3 → False) ∧ (P1 → P4 → False) ∧ (P1 → P5 → False) ∧ (P1 → P6 → False)) ∧
      ((P2 → P3 → False) ∧ (P2 → P4 → False) ∧ (P2 → P5 → False) ∧ (P2 → P6 → False)) ∧
      ((P3 → P4 → False) ∧ (P3 → P5 → False) ∧ (P3 → P6 → False)) ∧
      ((P4 → P5 → False) ∧ (P4 → P6 → False)) ∧ (P5 → P6 → False)) :
    (l1 ++ l2 ++ l3 ++ l4 ++ l5 ++ l6).Pairwise fun a b => ¬ (E a ∧ E b) := by
  obtain ⟨⟨x12, x13, x14, x15, x16⟩, ⟨x23, x24, x25, x26⟩, ⟨x34, x35, x36⟩, ⟨x45, x46⟩, x56⟩ := hx
  simp only [List.pairwise_append, List.mem_append]
  refine ⟨⟨⟨⟨⟨h1.1, h2.1, ?_⟩, h3.1, ?_⟩, h4.1, ?_⟩, h5.1, ?_⟩, h6.1, ?_⟩
  · exact fun a ha b hb e => x12 (h1.2 a ha e.1) (h2.2 b hb e.2)
  · rintro a (ha | ha) b hb e
    · exact x13 (h1.2 a ha e.1) (h3.2 b hb e.2)
    · exact x23 (h2.2 a ha e.1) (h3.2 b hb e.2)
  · rintro a ((ha | ha) | ha) b hb e
    · exact x14 (h1.2 a ha e.1) (h4.2 b hb e.2)
    · exact x24 (h2.2 a ha e.1) (h4.2 b hb e.2)
    · exact x34 (h3.2 a ha e.1) (h4.2 b hb e.2)
  · rintro a (((ha | ha) | ha) | ha) b hb e
    · exact x15 (h1.2 a ha e.1) (h5.2 b hb e.2)
    · exact x25 (h2.2 a ha e.1) (h5.2 b hb e.2)
    · exact x35 (h3.2 a ha e.1) (h5.2 b hb e.2)
    · exact x45 (h4.2 a ha e.1) (h5.2 b hb e.2)
  · rintro a ((((ha | ha) | ha) | ha) | ha) b hb e
    · exact x16 (h1.2 a ha e.1) (h6.2 b hb e.2)
    · exact x26 (h2.2 a ha e.1) (h6.2 b hb e.2)
    · exact x36 (h3.2 a ha e.1) (h6.2 b hb e.2)
    · exact x46 (h4.2 a ha e.1) (h6.2 b hb e.2)
    · exact x56 (h5.2 a ha e.1) (h6.2 b hb e.2)

/-- The moves of a quotient from a pair of locations exclude each other, if those of its operands do. -/
theorem quotientMoves_pairwise {ni : String} {lt ls : LocTree F} {a : String} {tt st : List (Transition F)} {v : Val}
    (pT : tt.Pairwise fun t t' => ¬ (v ∈ den (allowedFed lt t) ∧ v ∈ den (allowedFed lt t')))
    (pS : st.Pairwise fun t t' => ¬ (v ∈ den (allowedFed ls t) ∧ v ∈ den (allowedFed ls t')))
    (hS : ni ∉ S.outputs) (hS' : ni ∉ S.inputs) :
    (quotientMoves T S clock ni lt ls a tt st).Pairwise fun t t' => ¬ (v ∈ den t.guard ∧ v ∈ den t'.guard) := by
  have invT : ∀ t, v ∈ den (allowedFed lt t) → v ∈ InvSet lt := fun t h => by
    unfold allowedFed at h; exact (mem_applyInvariants.1 h).2
  have invS : ∀ t, v ∈ den (allowedFed ls t) → v ∈ InvSet ls := fun t h => by
    unfold allowedFed at h; exact (mem_applyInvariants.1 h).2
  -- what the guards of each group say
  have nS : S.hasAction a = true → a ≠ ni := by
    rintro h rfl
    rcases hasAction_iff.1 h with h | h
    · exact hS' h
    · exact hS h
  unfold quotientMoves
  refine List.Pairwise.filter _ ?_
  have one : ∀ (R : Transition F → Transition F → Prop) (c : Bool) (l : List (Transition F)), (c = true → l.Pairwise R) →
      (if c = true then l else []).Pairwise R := by
    intro R c l h
    split
    · rename_i hc; exact h hc
    · exact .nil
  have inverseS : v ∈ den (inverse (ls.applyInvariants univ : F)) → v ∉ InvSet ls := by
    intro h hm
    rw [den_inverse] at h
    exact h.2 (mem_applyInvariants.2 ⟨by rw [den_univ]; exact h.1, hm⟩)
  have known : ∀ {s : Sys F}, a ∈ s.outputs → s.hasAction a = true := fun h => hasAction_iff.2 (.inr h)
  -- every group has pairwise different guards, and a fact that holds when one of its guards does
  refine pairwise_groups (E := fun t : Transition F => v ∈ den t.guard)
    (P1 := S.hasAction a = true ∧ T.hasAction a = true ∧ (∃ s ∈ st, v ∈ den (allowedFed ls s)) ∧
      ∃ t ∈ tt, v ∈ den (allowedFed lt t))
    (P2 := S.hasAction a = true ∧ T.hasAction a = false ∧ ∃ s ∈ st, v ∈ den (allowedFed ls s))
    (P3 := v ∉ InvSet ls ∨ (a ∈ S.outputs ∧ ∀ s ∈ st, v ∉ den (allowedFed ls s)))
    (P4 := a ∈ S.outputs ∧ a ∈ T.outputs ∧ (∃ s ∈ st, v ∈ den (allowedFed ls s)) ∧
      ∀ t ∈ tt, v ∉ den (allowedFed lt t))
    (P5 := a = ni ∧ v ∉ InvSet lt ∧ v ∈ InvSet ls)
    (P6 := T.hasAction a = true ∧ S.hasAction a = false ∧ v ∈ InvSet ls ∧ ∃ t ∈ tt, v ∈ den (allowedFed lt t))
    ?_ ?_ ?_ ?_ ?_ ?_ ?_
  · constructor
    · refine one _ _ _ fun _ => pairwise_flatMap_map pT pS fun t s t' s' hno => ?_
      simp only [den_inter]
      exact fun h => hno ⟨h.1.1, h.1.2, h.2.1, h.2.2⟩
    · intro t ht hg
      split at ht
      · rename_i hc
        rw [Bool.and_eq_true] at hc
        obtain ⟨t1, ht1, ht⟩ := List.mem_flatMap.1 ht
        obtain ⟨s1, hs1, rfl⟩ := List.mem_map.1 ht
        simp only [den_inter] at hg
        exact ⟨hc.1, hc.2, ⟨s1, hs1, hg.2⟩, t1, ht1, hg.1⟩
      · cases ht
  · constructor
    · exact one _ _ _ fun _ => List.pairwise_map.2 pS
    · intro t ht hg
      split at ht
      · rename_i hc
        rw [Bool.and_eq_true, Bool.not_eq_true'] at hc
        obtain ⟨s1, hs1, rfl⟩ := List.mem_map.1 ht
        exact ⟨hc.1, hc.2, s1, hs1, hg⟩
      · cases ht
  · constructor
    · split <;> exact List.pairwise_singleton _ _
    · intro t ht hg
      split at ht
      · rename_i hc
        rw [List.mem_singleton] at ht; subst ht
        simp only [den_append] at hg
        rcases hg with hg | hg
        · exact .inl (inverseS hg)
        · refine .inr ⟨List.contains_iff_mem.1 hc, fun s hs hm => ?_⟩
          rw [den_inverse] at hg
          exact hg.2 (mem_foldl_append.2 (.inr ⟨s, hs, hm⟩))
      · rw [List.mem_singleton] at ht; subst ht
        exact .inl (inverseS hg)
  · constructor
    · refine one _ _ _ fun _ => List.pairwise_map.2 (pS.imp fun {s s'} hno h => hno ?_)
      simp only [den_inter] at h
      exact ⟨h.1.1, h.2.1⟩
    · intro t ht hg
      split at ht
      · rename_i hc
        rw [Bool.and_eq_true, List.contains_iff_mem, List.contains_iff_mem] at hc
        obtain ⟨s1, hs1, rfl⟩ := List.mem_map.1 ht
        simp only [den_inter] at hg
        refine ⟨hc.1, hc.2, ⟨s1, hs1, hg.1⟩, fun t ht hm => ?_⟩
        have := hg.2
        rw [den_inverse] at this
        exact this.2 (mem_foldl_append.2 (.inr ⟨t, ht, hm⟩))
      · cases ht
  · constructor
    · split
      · exact List.pairwise_singleton _ _
      · exact .nil
    · intro t ht hg
      split at ht
      · rename_i hc
        rw [List.mem_singleton] at ht; subst ht
        simp only [den_inter, den_inverse, Set.mem_inter_iff, Set.mem_ofPred_eq, mem_invOrUniv] at hg
        exact ⟨hc, fun hm => hg.1.2 ⟨hg.1.1, hm⟩, hg.2.2⟩
      · cases ht
  · constructor
    · refine one _ _ _ fun _ => List.pairwise_map.2 (pT.imp fun {s s'} hno h => hno ?_)
      simp only [mem_applyInvariants] at h
      exact ⟨h.1.1, h.2.1⟩
    · intro t ht hg
      split at ht
      · rename_i hc
        rw [Bool.and_eq_true, Bool.not_eq_true'] at hc
        obtain ⟨t1, ht1, rfl⟩ := List.mem_map.1 ht
        rw [mem_applyInvariants] at hg
        exact ⟨hc.1, hc.2, hg.2, t1, ht1, hg.1⟩
      · cases ht
  · have ff : ∀ {b : Bool}, b = true → b = false → False := fun h h' => by rw [h] at h'; cases h'
    refine ⟨⟨?_, ?_, ?_, ?_, ?_⟩, ⟨?_, ?_, ?_, ?_⟩, ⟨?_, ?_, ?_⟩, ⟨?_, ?_⟩, ?_⟩
    · exact fun h h' => ff h.2.1 h'.2.1
    · rintro ⟨_, _, ⟨s, hs, hm⟩, _⟩ (h | ⟨_, h⟩)
      · exact h (invS s hm)
      · exact h s hs hm
    · rintro ⟨_, _, _, t, ht, hm⟩ h
      exact h.2.2.2 t ht hm
    · exact fun h h' => nS h.1 h'.1
    · exact fun h h' => ff h.1 h'.2.1
    · rintro ⟨_, _, s, hs, hm⟩ (h | ⟨_, h⟩)
      · exact h (invS s hm)
      · exact h s hs hm
    · exact fun h h' => ff (known h'.2.1) h.2.1
    · exact fun h h' => nS h.1 h'.1
    · exact fun h h' => ff h.1 h'.2.1
    · rintro (h | ⟨_, h⟩) ⟨_, _, ⟨s, hs, hm⟩, _⟩
      · exact h (invS s hm)
      · exact h s hs hm
    · rintro (h | ⟨h, _⟩) ⟨h', _, hm⟩
      · exact h hm
      · exact nS (known h) h'
    · rintro (h | ⟨h, _⟩) ⟨_, h', hm, _⟩
      · exact h hm
      · exact ff (known h) h'
    · exact fun h h' => nS (known h.1) h'.1
    · exact fun h h' => ff (known h.1) h'.2.1
    · rintro ⟨_, h, _⟩ ⟨_, _, _, t, _, hm⟩
      exact h (invT t hm)

/-- The quotient of two deterministic systems is deterministic. -/
theorem QuotParts.deterministic (h : QuotParts T S clock) (hQ : newQuotientUnchecked T S clock = .ok Q)
    (dT : T.ts.Deterministic) (dS : S.ts.Deterministic)
    (hf : ∀ a ∈ Q.inputs, a ∉ T.inputs → a ∉ S.outputs → a ∉ S.inputs) : Q.ts.Deterministic := by
  intro x v hr a trans ha htr
  obtain ⟨hv, hx⟩ := h.state hQ hr
  have ha : Q.hasAction a = true := ha
  have htr : Q.next x a = .ok trans := htr
  obtain ⟨_, rfl⟩ := newQuotient_eq hQ
  have hfr := freshInput_fresh (setUnion T.inputs S.outputs)
  rw [mem_setUnion, not_or] at hfr
  rcases hx with ⟨lt, ls, rfl, hlt, hls, vT, vS⟩ | rfl | rfl
  · obtain ⟨tt, st, htt, hst, gt, gs, hnext⟩ := quotient_pair_next h.goodT h.goodS hlt hls ha
    rw [hnext] at htr; cases htr
    refine (quotientMoves_pairwise (vT.pairwise h.goodT h.calmT dT hlt hv htt)
      (vS.pairwise h.goodS h.calmS dS hls hv hst) hfr.2 (hf _ ?_ hfr.1 hfr.2)).imp fun hno hc => hno ⟨hc.1.1, hc.2.1⟩
    rw [inputs_quotient, mem_setUnion]; right; simp
  · rw [next_quotient ha] at htr
    cases htr
    exact List.pairwise_singleton _ _
  · rw [next_quotient ha] at htr
    have e : (LocTree.errorLoc clock : LocTree F).isInconsistent = true := rfl
    rw [if_pos e] at htr
    split at htr <;> cases htr
    · exact List.pairwise_singleton _ _
    · exact .nil

theorem QuotParts.calm (h : QuotParts T S clock) (hQ : newQuotientUnchecked T S clock = .ok Q) : Q.CalmUpdates := by
  intro x a trans hx htr
  by_cases ha : Q.hasAction a = true
  rotate_left
  · obtain ⟨_, rfl⟩ := newQuotient_eq hQ
    unfold next at htr
    rw [if_pos (by simpa [hasAction, inputs_quotient, outputs_quotient] using ha)] at htr
    cases htr
  obtain ⟨_, rfl⟩ := newQuotient_eq hQ
  have none : NoConflict [] := fun u hu => by cases hu
  have single : ∀ u : CUpdate, NoConflict [u] := by
    intro u u1 h1 u2 h2 _
    rw [List.mem_singleton] at h1 h2; rw [h1, h2]
  rcases hx with ⟨lt, ls, hlt, hls, rfl⟩ | rfl | rfl
  · obtain ⟨tt, st, htt, hst, gt, gs, hnext⟩ := quotient_pair_next h.goodT h.goodS hlt hls ha
    rw [hnext] at htr; cases htr
    have cT := h.calmT.available hlt htt
    have cS := h.calmS.available hls hst
    intro t ht
    unfold quotientMoves at ht
    have ht := (List.mem_filter.1 ht).1
    simp only [List.mem_append] at ht
    rcases ht with ((((ht | ht) | ht) | ht) | ht) | ht <;> split at ht <;>
      first
      | (obtain ⟨t1, ht1, ht⟩ := List.mem_flatMap.1 ht
         obtain ⟨s1, hs1, rfl⟩ := List.mem_map.1 ht
         exact noConflict_append (cT t1 ht1) (cS s1 hs1) (gt t1 ht1).2.own (gs s1 hs1).2.own h.dis)
      | (obtain ⟨t1, ht1, rfl⟩ := List.mem_map.1 ht
         first
         | exact cT t1 ht1
         | exact cS t1 ht1
         | exact single _)
      | (rw [List.mem_singleton] at ht; subst ht
         first
         | exact none
         | exact single _)
      | cases ht
  · rw [next_quotient ha] at htr
    cases htr
    intro t ht; rw [List.mem_singleton] at ht; subst ht; exact none
  · rw [next_quotient ha] at htr
    have e : (LocTree.errorLoc clock : LocTree F).isInconsistent = true := rfl
    rw [if_pos e] at htr
    split at htr <;> cases htr
    · intro t ht; rw [List.mem_singleton] at ht; subst ht; exact none
    · intro t ht; cases ht

theorem QuotParts.past (h : QuotParts T S clock) (hQ : newQuotientUnchecked T S clock = .ok Q) :
    ∀ l, Q.IsLoc l → PastClosed l := by
  obtain ⟨_, rfl⟩ := newQuotient_eq hQ
  rintro l (⟨lt, ls, _, _, rfl⟩ | rfl | rfl)
  · intro v d _ _ _ i hi; cases hi
  · intro v d _ _ _ i hi; cases hi
  · exact pastClosed_errorLoc h.h0 h.hn

end Sys
end Reveaal
