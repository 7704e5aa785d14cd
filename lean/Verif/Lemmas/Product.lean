import Verif.Lemmas.SysGood
import Verif.Spec.Semantics

/-! # Joint transitions of two systems with different clocks -/

namespace Reveaal
open ZoneLib
variable {F : Type} [ZoneLib F]

theorem runUpdates_congr_at {us : List CUpdate} {i : Nat} : ∀ {v w : Val}, v i = w i →
    runUpdates us v i = runUpdates us w i := by
  induction us with
  | nil => intro v w h; exact h
  | cons u us ih =>
    intro v w h
    refine ih ?_
    by_cases hi : i = u.clock
    · subst hi; simp
    · rw [assign_other _ _ hi, assign_other _ _ hi, h]

theorem GoodTrans.untouched {C : List Nat} {t : Transition F} (h : GoodTrans C t) {i : Nat}
    (hi : i ∉ C) {v : Val} : runUpdates t.updates v i = v i :=
  runUpdates_untouched fun u hu he => hi (he ▸ h.own u hu)

theorem GoodTrans.run_valid {C : List Nat} {t : Transition F} (h : GoodTrans C t) {v : Val}
    (hv : Valid (dim F) v) : Valid (dim F) (runUpdates t.updates v) := runUpdates_valid h.upd hv

/-- Whether a transition can be taken only depends on the clocks of its system. -/
theorem GoodTrans.canTake_congr {C : List Nat} {t : Transition F} (h : GoodTrans C t) {v w : Val}
    (hv : Valid (dim F) v) (hw : Valid (dim F) w) (ha : ∀ i ∈ C, v i = w i) (hc : CanTake t v) :
    CanTake t w :=
  ⟨h.guard v w hv hw ha hc.1, h.inv _ _ (h.run_valid hv) (h.run_valid hw)
    (fun i hi => runUpdates_congr_at (ha i hi)) hc.2⟩

theorem CanTake.valid {t : Transition F} {v : Val} (h : CanTake t v) : Valid (dim F) v := den_valid h.1

/-- A joint transition can be taken exactly when both parts can. -/
theorem canTake_combine {C D : List Nat} (hdis : ∀ i ∈ C, i ∉ D) {l r t : Transition F} {c : CompType}
    (hl : GoodTrans C l) (hr : GoodTrans D r) (hc : c.IsProd) (h : Transition.combine l r c = .ok t)
    {v : Val} : CanTake t v ↔ CanTake l v ∧ CanTake r v := by
  obtain ⟨i, x, hx, h'⟩ := combine_ok (l := l) (r := r) hc
  rw [h'] at h; cases h
  unfold CanTake
  simp only [den_inter, Set.mem_inter_iff, mem_compose_inv hx, runUpdates_append]
  constructor
  · rintro ⟨⟨h1, h2⟩, h3, h4⟩
    have hv := den_valid h1
    refine ⟨⟨h1, ?_⟩, h2, ?_⟩
    · refine hl.inv _ _ (hr.run_valid (hl.run_valid hv)) (hl.run_valid hv) (fun i hi => ?_) h3
      exact hr.untouched (hdis i hi)
    · refine hr.inv _ _ (hr.run_valid (hl.run_valid hv)) (hr.run_valid hv) (fun i hi => ?_) h4
      exact runUpdates_congr_at (hl.untouched fun hC => hdis i hC hi)
  · rintro ⟨⟨h1, h3⟩, h2, h4⟩
    have hv := den_valid h1
    refine ⟨⟨h1, h2⟩, ?_, ?_⟩
    · refine hl.inv _ _ (hl.run_valid hv) (hr.run_valid (hl.run_valid hv)) (fun i hi => ?_) h3
      exact (hr.untouched (hdis i hi)).symm
    · refine hr.inv _ _ (hr.run_valid hv) (hr.run_valid (hl.run_valid hv)) (fun i hi => ?_) h4
      exact (runUpdates_congr_at (hl.untouched fun hC => hdis i hC hi)).symm

/-- The clocks after a joint transition: each side's clocks are as after its own part. -/
theorem run_combine {C D : List Nat} (hdis : ∀ i ∈ C, i ∉ D) {l r t : Transition F} {c : CompType}
    (hl : GoodTrans C l) (hr : GoodTrans D r) (hc : c.IsProd) (h : Transition.combine l r c = .ok t)
    (v : Val) : (∀ i ∈ C, runUpdates t.updates v i = runUpdates l.updates v i) ∧
      (∀ i ∈ D, runUpdates t.updates v i = runUpdates r.updates v i) ∧
      ∀ i, i ∉ C → i ∉ D → runUpdates t.updates v i = v i := by
  obtain ⟨i, x, hx, h'⟩ := combine_ok (l := l) (r := r) hc
  rw [h'] at h; cases h
  simp only [runUpdates_append]
  refine ⟨fun i hi => hr.untouched (hdis i hi), fun i hi => ?_, fun i h1 h2 => ?_⟩
  · exact runUpdates_congr_at (hl.untouched fun hC => hdis i hC hi)
  · rw [hr.untouched h2, hl.untouched h1]

theorem combine_target {l r t : Transition F} {c : CompType} (hc : c.IsProd)
    (h : Transition.combine l r c = .ok t) : LocTree.compose l.target r.target c = .ok t.target := by
  obtain ⟨i, x, hx, h'⟩ := combine_ok (l := l) (r := r) hc
  rw [h'] at h; cases h; exact hx

theorem canTake_withoutId {l : LocTree F} {v : Val} :
    CanTake (Transition.withoutId l) v ↔ Valid (dim F) v ∧ v ∈ InvSet l := by
  unfold CanTake Transition.withoutId
  simp only [den_univ, runUpdates]; rfl

/-- Pairs of incompatible lists are incompatible. -/
theorem combinations_pairwise {ls rs ts : List (Transition F)} {c : CompType}
    (h : Transition.combinations ls rs c = .ok ts) {P Q R : Transition F → Transition F → Prop}
    (hl : ls.Pairwise P) (hr : rs.Pairwise Q)
    (hPR : ∀ l ∈ ls, ∀ l' ∈ ls, ∀ r ∈ rs, ∀ r' ∈ rs, ∀ t t', Transition.combine l r c = .ok t →
      Transition.combine l' r' c = .ok t' → P l l' → R t t')
    (hQR : ∀ l ∈ ls, ∀ r ∈ rs, ∀ r' ∈ rs, ∀ t t', Transition.combine l r c = .ok t →
      Transition.combine l r' c = .ok t' → Q r r' → R t t') : ts.Pairwise R := by
  replace h := mapM_ok.1 h
  have hp : (ls.flatMap fun l => rs.map fun r => (l, r)).Pairwise fun p q =>
      ∀ t t', Transition.combine p.1 p.2 c = .ok t → Transition.combine q.1 q.2 c = .ok t' → R t t' := by
    rw [List.pairwise_flatMap]
    constructor
    · intro l hlm
      rw [List.pairwise_map]
      exact hr.imp_of_mem fun hr1 hr2 hq t t' h1 h2 => hQR l hlm _ hr1 _ hr2 t t' h1 h2 hq
    · refine hl.imp_of_mem fun {l l'} hl1 hl2 hp x hx y hy t t' h1 h2 => ?_
      obtain ⟨r, hr1, rfl⟩ := List.mem_map.1 hx
      obtain ⟨r', hr2, rfl⟩ := List.mem_map.1 hy
      exact hPR l hl1 l' hl2 r hr1 r' hr2 t t' h1 h2 hp
  clear hl hr hPR hQR
  generalize (ls.flatMap fun l => rs.map fun r => (l, r)) = ps at h hp
  induction h with
  | nil => exact .nil
  | cons h1 h2 ih =>
    rw [List.pairwise_cons] at hp ⊢
    refine ⟨fun t' ht' => ?_, ih hp.2⟩
    obtain ⟨q, hq, hqt⟩ := forall2_mem_right h2 t' ht'
    exact hp.1 q hq _ _ h1 hqt


namespace Sys

/-- The moves of one side of a product: its own moves if it knows the action, standing still
otherwise. -/
def sideMoves (s : Sys F) (loc : LocTree F) (a : String) : Res (List (Transition F)) :=
  if s.hasAction a then s.next loc a else .ok [Transition.withoutId loc]

theorem sideMoves_good {s : Sys F} (hs : s.Good) {x : LocTree F} (hx : s.IsLoc x) (a : String) :
    ∃ ts, s.sideMoves x a = .ok ts ∧ ∀ t ∈ ts, s.IsLoc t.target ∧ GoodTrans s.clocks t := by
  unfold sideMoves
  split
  · rename_i h; exact hs.next x a hx h
  · exact ⟨_, rfl, stay_good hs hx⟩

/-- A product `s` of `l` and `r` with composed locations whose moves are the joint moves. -/
structure IsProd (s l r : Sys F) (c : CompType) : Prop where
  kind : c.IsProd
  clocks : ∀ i, i ∈ s.clocks ↔ i ∈ l.clocks ∨ i ∈ r.clocks
  locs : ∀ x, s.IsLoc x ↔ ∃ a b, l.IsLoc a ∧ r.IsLoc b ∧ LocTree.compose a b c = .ok x
  init : ∀ x, s.initialLoc = .ok (some x) → ∃ a b, l.initialLoc = .ok (some a) ∧
    r.initialLoc = .ok (some b) ∧ LocTree.compose a b c = .ok x
  acts : ∀ a, s.hasAction a = true → l.hasAction a = true ∨ r.hasAction a = true
  moves : ∀ x xl xr a, s.hasAction a = true → LocTree.compose xl xr c = .ok x →
    s.next x a = (do
      let left ← l.sideMoves xl a
      let right ← r.sideMoves xr a
      Transition.combinations left right c)

theorem prod_init {l r : Sys F} {c : CompType} {x : LocTree F} (h : (do
      match ← l.initialLoc with
      | none => .ok none
      | some a =>
        match ← r.initialLoc with
        | none => .ok none
        | some b => do
          let x ← LocTree.compose a b c
          .ok (some x) : Res (Option (LocTree F))) = .ok (some x)) :
    ∃ a b, l.initialLoc = .ok (some a) ∧ r.initialLoc = .ok (some b) ∧
      LocTree.compose a b c = .ok x := by
  obtain ⟨o, h1, h⟩ := bind_ok h
  cases o with
  | none => cases h
  | some a =>
    obtain ⟨o', h2, h⟩ := bind_ok h
    cases o' with
    | none => cases h
    | some b =>
      obtain ⟨y, h3, h⟩ := bind_ok h
      cases h
      exact ⟨a, b, h1, h2, h3⟩

theorem isProd_composition {l r s : Sys F} (h : newComposition l r = .ok s) :
    s.IsProd l r .composition := by
  obtain ⟨_, rfl⟩ := newComposition_eq h
  have hacts : ∀ a, (Sys.hasAction (.composition l r
      (mkSet ((l.inputs.filter fun a => !(r.outputs.contains a)) ++
        (r.inputs.filter fun a => !(l.outputs.contains a))))
      (setUnion l.outputs r.outputs)
      (setDiff (setUnion l.inputs l.outputs) (setUnion r.inputs r.outputs))
      (setDiff (setUnion r.inputs r.outputs) (setUnion l.inputs l.outputs))
      (setInter (setUnion l.inputs l.outputs) (setUnion r.inputs r.outputs))) a = true) →
      l.hasAction a = true ∨ r.hasAction a = true := by
    intro a ha
    rw [hasAction_iff, inputs_composition, outputs_composition] at ha
    simp only [mem_mkSet, mem_setUnion, List.mem_append, List.mem_filter] at ha
    rw [hasAction_iff, hasAction_iff]; tauto
  refine ⟨.inr rfl, ?_, fun x => Iff.rfl, ?_, hacts, ?_⟩
  · intro i; simp [clocks]
  · intro x hx; exact prod_init hx
  · intro x xl xr a ha hx
    have hac := hacts a ha
    rw [next_composition ha, (compose_parts hx).1, (compose_parts hx).2.1]
    simp only [ok_bind, sideMoves]
    have hm : ∀ s : Sys F, (a ∈ setUnion s.inputs s.outputs) ↔ s.hasAction a = true := by
      intro s; rw [mem_setUnion, hasAction_iff]
    simp only [List.contains_iff_mem, mem_setInter, mem_setDiff, hm]
    cases hl : l.hasAction a <;> cases hr : r.hasAction a <;> simp_all

theorem isProd_conjunction {l r s : Sys F} (h : newConjunctionUnchecked l r = .ok s) :
    s.IsProd l r .conjunction := by
  obtain ⟨_, _, rfl⟩ := newConjunction_eq h
  have hacts : ∀ a, (Sys.hasAction (.conjunction l r (setInter l.inputs r.inputs)
      (setInter l.outputs r.outputs)) a = true) → l.hasAction a = true ∧ r.hasAction a = true := by
    intro a ha
    rw [hasAction_iff, inputs_conjunction, outputs_conjunction] at ha
    simp only [mem_setInter] at ha
    rw [hasAction_iff, hasAction_iff]; tauto
  refine ⟨.inl rfl, ?_, fun x => Iff.rfl, ?_, fun a ha => .inl (hacts a ha).1, ?_⟩
  · intro i; simp [clocks]
  · intro x hx; exact prod_init hx
  · intro x xl xr a ha hx
    rw [next_conjunction ha, (compose_parts hx).1, (compose_parts hx).2.1]
    simp only [ok_bind, sideMoves, (hacts a ha).1, (hacts a ha).2, if_true]

/-- A participant's view of its part of a joint move. -/
theorem participates_iff {s : Sys F} (_ : s.Good) {x x' : LocTree F} (hx : s.IsLoc x) {v v' : Val}
    (hv : Valid (dim F) v) {a : String} {ts : List (Transition F)} (hts : s.sideMoves x a = .ok ts) :
    s.Participates x v a x' v' ↔ ∃ t ∈ ts, CanTake t v ∧ x' = t.target ∧
      ∀ i ∈ s.clocks, v' i = runUpdates t.updates v i := by
  unfold Participates sideMoves at *
  cases ha : s.hasAction a with
  | true =>
    simp only [ha, if_true] at hts
    constructor
    · rintro ⟨h, _⟩
      obtain ⟨v1, ⟨_, trans, htr, t, ht, hc, rfl, rfl⟩, hag⟩ := h rfl
      have htr : s.next x a = .ok trans := htr
      rw [hts] at htr; cases htr
      exact ⟨t, ht, hc, rfl, hag⟩
    · rintro ⟨t, ht, hc, rfl, hag⟩
      exact ⟨fun _ => ⟨_, ⟨ha, _, hts, t, ht, hc, rfl, rfl⟩, hag⟩, by rintro ⟨⟩⟩
  | false =>
    simp only [ha, Bool.false_eq_true, if_false, Except.ok.injEq] at hts
    subst hts
    simp only [List.mem_singleton, exists_eq_left, canTake_withoutId]
    constructor
    · rintro ⟨_, h⟩
      obtain ⟨rfl, h1, h2⟩ := h trivial
      exact ⟨⟨hv, h1⟩, rfl, h2⟩
    · rintro ⟨⟨_, h1⟩, rfl, h2⟩
      exact ⟨by rintro ⟨⟩, fun _ => ⟨rfl, h1, h2⟩⟩

/-- Moves of a product are exactly the joint moves of the participants. -/
theorem IsProd.act_iff {s l r : Sys F} {c : CompType} (h : s.IsProd l r c) (hl : l.Good) (hr : r.Good)
    (hdis : l.DisjointClocks r) {x xl xr x' : LocTree F} (hxl : l.IsLoc xl) (hxr : r.IsLoc xr)
    (hx : LocTree.compose xl xr c = .ok x) {v v' : Val} (hv : Valid (dim F) v) {a : String}
    (ha : s.hasAction a = true) :
    s.ts.Act x v a x' v' ↔ ∃ xl' xr', LocTree.compose xl' xr' c = .ok x' ∧
      l.Participates xl v a xl' v' ∧ r.Participates xr v a xr' v' ∧ ∀ i ∉ s.clocks, v' i = v i := by
  obtain ⟨ls, hls, gls⟩ := sideMoves_good hl hxl a
  obtain ⟨rs, hrs, grs⟩ := sideMoves_good hr hxr a
  obtain ⟨ts, hts, hto, hfrom⟩ := combinations_ok (ls := ls) (rs := rs) h.kind
  have hnext : s.ts.next x a = .ok ts := by
    show s.next x a = .ok ts
    rw [h.moves x xl xr a ha hx, hls, hrs]; exact hts
  constructor
  · rintro ⟨_, trans, htr, t, ht, hc, rfl, rfl⟩
    rw [hnext] at htr; cases htr
    obtain ⟨tl, htl, tr, htr, he⟩ := hto t ht
    obtain ⟨c1, c2⟩ := (canTake_combine hdis (gls tl htl).2 (grs tr htr).2 h.kind he).1 hc
    obtain ⟨r1, r2, r3⟩ := run_combine hdis (gls tl htl).2 (grs tr htr).2 h.kind he v
    refine ⟨tl.target, tr.target, combine_target h.kind he, ?_, ?_, ?_⟩
    · exact (participates_iff hl hxl hv hls).2 ⟨tl, htl, c1, rfl, r1⟩
    · exact (participates_iff hr hxr hv hrs).2 ⟨tr, htr, c2, rfl, r2⟩
    · intro i hi
      rw [h.clocks] at hi
      exact r3 i (fun hc => hi (.inl hc)) fun hc => hi (.inr hc)
  · rintro ⟨xl', xr', hx', pl, pr, hrest⟩
    obtain ⟨tl, htl, c1, rfl, r1⟩ := (participates_iff hl hxl hv hls).1 pl
    obtain ⟨tr, htr, c2, rfl, r2⟩ := (participates_iff hr hxr hv hrs).1 pr
    obtain ⟨t, ht, he⟩ := hfrom tl htl tr htr
    obtain ⟨q1, q2, q3⟩ := run_combine hdis (gls tl htl).2 (grs tr htr).2 h.kind he v
    refine ⟨ha, ts, hnext, t, ht, (canTake_combine hdis (gls tl htl).2 (grs tr htr).2 h.kind he).2
      ⟨c1, c2⟩, ?_, ?_⟩
    · have := combine_target h.kind he
      rw [hx'] at this; exact Except.ok.inj this
    · funext i
      by_cases h1 : i ∈ l.clocks
      · rw [q1 i h1, r1 i h1]
      · by_cases h2 : i ∈ r.clocks
        · rw [q2 i h2, r2 i h2]
        · rw [q3 i h1 h2]
          refine hrest i ?_
          rw [h.clocks]; tauto

theorem zeroVal_valid {n : Nat} : Valid n zeroVal :=
  ⟨rfl, fun _ => le_refl _, fun _ _ => rfl⟩

/-- In a concrete state the system gets into, the location is one of the system and the valuation is
valid. -/
theorem Good.reach {s : Sys F} (hs : s.Good) {x : LocTree F} {v : Val} (h : s.ts.Reach x v) :
    s.IsLoc x ∧ Valid (dim F) v := by
  induction h with
  | init h _ =>
    obtain ⟨o, h1, h2⟩ := hs.initial
    have h : s.initialLoc = _ := h
    rw [h1] at h; cases h
    exact ⟨h2 _ rfl, zeroVal_valid⟩
  | act _ hst ih =>
    obtain ⟨ha, trans, htr, t, ht, hc, rfl, rfl⟩ := hst
    obtain ⟨ts, h1, h2⟩ := hs.next _ _ ih.1 ha
    have htr : s.next _ _ = _ := htr
    rw [h1] at htr; cases htr
    exact ⟨(h2 t ht).1, (h2 t ht).2.run_valid ih.2⟩
  | delay _ hd ih => exact ⟨ih.1, delay_valid ih.2 hd.1⟩

theorem delay_agree {n : Nat} {v w : Val} {d : ℝ} {i : Nat} (h : v i = w i) :
    delay n v d i = delay n w d i := by
  unfold delay; split <;> simp [h]

/-- A participant that follows the product. -/
theorem follow_act {s : Sys F} (hs : s.Good) {x x' : LocTree F} {v v' w : Val} {a : String}
    (hw : s.ts.Reach x w) (hv : Valid (dim F) v) (hag : ∀ i ∈ s.clocks, v i = w i)
    (hp : s.Participates x v a x' v') : ∃ w', s.ts.Reach x' w' ∧ ∀ i ∈ s.clocks, v' i = w' i := by
  obtain ⟨hx, hwv⟩ := hs.reach hw
  obtain ⟨ts, hts, g⟩ := sideMoves_good hs hx a
  cases ha : s.hasAction a with
  | true =>
    obtain ⟨t, ht, hc, rfl, hr⟩ := (participates_iff hs hx hv hts).1 hp
    have hn : s.next x a = .ok ts := by
      unfold sideMoves at hts; rwa [ha] at hts
    refine ⟨_, .act hw ⟨ha, ts, hn, t, ht, (g t ht).2.canTake_congr hv hwv hag hc, rfl, rfl⟩, ?_⟩
    intro i hi
    rw [hr i hi]; exact runUpdates_congr_at (hag i hi)
  | false =>
    obtain ⟨rfl, _, h2⟩ := hp.2 ha
    exact ⟨w, hw, fun i hi => (h2 i hi).trans (hag i hi)⟩

/-- The parts of a concrete state a product gets into are concrete states the participants get into by
themselves. -/
theorem IsProd.project {s l r : Sys F} {c : CompType} (h : s.IsProd l r c) (hs : s.Good) (hl : l.Good)
    (hr : r.Good) (hdis : l.DisjointClocks r) {x : LocTree F} {v : Val} (hreach : s.ts.Reach x v) :
    ∃ xl xr, LocTree.compose xl xr c = .ok x ∧
      (∃ w, l.ts.Reach xl w ∧ ∀ i ∈ l.clocks, v i = w i) ∧
      (∃ w, r.ts.Reach xr w ∧ ∀ i ∈ r.clocks, v i = w i) := by
  induction hreach with
  | init hi hz =>
    obtain ⟨a, b, ha, hb, hx⟩ := h.init _ hi
    rw [mem_compose_inv hx] at hz
    exact ⟨a, b, hx, ⟨_, .init ha hz.1, fun _ _ => rfl⟩, ⟨_, .init hb hz.2, fun _ _ => rfl⟩⟩
  | act hre hst ih =>
    obtain ⟨xl, xr, hx, ⟨w1, hw1, hag1⟩, w2, hw2, hag2⟩ := ih
    have hv := (hs.reach hre).2
    obtain ⟨xl', xr', hx', pl, pr, _⟩ :=
      (h.act_iff hl hr hdis (hl.reach hw1).1 (hr.reach hw2).1 hx hv hst.1).1 hst
    exact ⟨xl', xr', hx', follow_act hl hw1 hv hag1 pl, follow_act hr hw2 hv hag2 pr⟩
  | @delay x v d hre hd ih =>
    obtain ⟨xl, xr, hx, ⟨w1, hw1, hag1⟩, w2, hw2, hag2⟩ := ih
    have hv := (hs.reach hre).2
    refine ⟨xl, xr, hx, ⟨delay (dim F) w1 d, .delay hw1 ⟨hd.1, fun d' h0 h1 => ?_⟩,
      fun i hi => delay_agree (hag1 i hi)⟩, delay (dim F) w2 d, .delay hw2 ⟨hd.1, fun d' h0 h1 => ?_⟩,
      fun i hi => delay_agree (hag2 i hi)⟩
    · have := ((mem_compose_inv hx).1 (hd.2 d' h0 h1)).1
      exact hl.invLocal xl (hl.reach hw1).1 _ _ (delay_valid hv h0)
        (delay_valid (hl.reach hw1).2 h0) (fun i hi => delay_agree (hag1 i hi)) this
    · have := ((mem_compose_inv hx).1 (hd.2 d' h0 h1)).2
      exact hr.invLocal xr (hr.reach hw2).1 _ _ (delay_valid hv h0)
        (delay_valid (hr.reach hw2).2 h0) (fun i hi => delay_agree (hag2 i hi)) this

/-- The moves of one side are not ambiguous if that side is deterministic in its state. -/
theorem side_det {s : Sys F} (hs : s.Good) (hdet : s.ts.Deterministic) {x : LocTree F} {v w : Val}
    (hw : s.ts.Reach x w) (hv : Valid (dim F) v) (hag : ∀ i ∈ s.clocks, v i = w i) {a : String}
    {ts : List (Transition F)} (hts : s.sideMoves x a = .ok ts) :
    ts.Pairwise fun t t' => ¬ (CanTake t v ∧ CanTake t' v) := by
  obtain ⟨hx, hwv⟩ := hs.reach hw
  obtain ⟨ts', hts', g⟩ := sideMoves_good hs hx a
  rw [hts] at hts'; cases hts'
  cases ha : s.hasAction a with
  | true =>
    have hn : s.next x a = .ok ts := by
      unfold sideMoves at hts; rwa [ha] at hts
    refine (hdet x w hw a ts ha hn).imp_of_mem fun {t t'} ht ht' h hc => h ⟨?_, ?_⟩
    · exact (g t ht).2.canTake_congr hv hwv hag hc.1
    · exact (g t' ht').2.canTake_congr hv hwv hag hc.2
  | false =>
    unfold sideMoves at hts
    simp only [ha, Bool.false_eq_true, if_false, Except.ok.injEq] at hts
    subst hts
    exact List.pairwise_singleton _ _

theorem IsProd.deterministic {s l r : Sys F} {c : CompType} (h : s.IsProd l r c) (hs : s.Good)
    (hl : l.Good) (hr : r.Good) (hdis : l.DisjointClocks r) (dl : l.ts.Deterministic)
    (dr : r.ts.Deterministic) : s.ts.Deterministic := by
  intro x v hre a trans ha htr
  obtain ⟨xl, xr, hx, ⟨w1, hw1, hag1⟩, w2, hw2, hag2⟩ := h.project hs hl hr hdis hre
  have hv := (hs.reach hre).2
  obtain ⟨ls, hls, gls⟩ := sideMoves_good hl (hl.reach hw1).1 a
  obtain ⟨rs, hrs, grs⟩ := sideMoves_good hr (hr.reach hw2).1 a
  have htr : s.next x a = .ok trans := htr
  rw [h.moves x xl xr a ha hx, hls, hrs] at htr
  simp only [ok_bind] at htr
  refine combinations_pairwise htr (side_det hl dl hw1 hv hag1 hls) (side_det hr dr hw2 hv hag2 hrs)
    ?_ ?_
  · intro a ha a' ha' b hb b' hb' t t' h1 h2 hp hc
    exact hp ⟨((canTake_combine hdis (gls a ha).2 (grs b hb).2 h.kind h1).1 hc.1).1,
      ((canTake_combine hdis (gls a' ha').2 (grs b' hb').2 h.kind h2).1 hc.2).1⟩
  · intro a ha b hb b' hb' t t' h1 h2 hp hc
    exact hp ⟨((canTake_combine hdis (gls a ha).2 (grs b hb).2 h.kind h1).1 hc.1).2,
      ((canTake_combine hdis (gls a ha).2 (grs b' hb').2 h.kind h2).1 hc.2).2⟩

end Sys
end Reveaal
