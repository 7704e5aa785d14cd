import Verif.ZoneFinite
import Verif.Lemmas.NotCut
import Verif.Lemmas.Recipe
import Verif.Lemmas.Run
import Verif.Lemmas.Determinism
import Verif.Lemmas.Consistency
import Verif.Lemmas.Reachability
import Verif.Lemmas.Refine
import Mathlib.Data.Set.Card

/-! # The searches end -/

namespace Reveaal
open ZoneLib
variable {F : Type} [ZoneLib F]

/-! ## More steps do not change an answer -/

/-- The first result was cut off, or the two are the same. -/
def Below {α : Type} (x y : Res α) : Prop := x = .error .fuel ∨ x = y

theorem Below.refl {α : Type} (x : Res α) : Below x x := .inr rfl

theorem Below.cut {α : Type} (y : Res α) : Below (.error .fuel) y := .inl rfl

theorem Below.trans {α : Type} {x y z : Res α} (h : Below x y) (h' : Below y z) : Below x z := by
  rcases h with h | rfl
  · exact .inl h
  · exact h'

theorem Below.bind {α β : Type} {x y : Res α} {f g : α → Res β} (h : Below x y) (hf : ∀ a, Below (f a) (g a)) :
    Below (x >>= f) (y >>= g) := by
  rcases h with rfl | rfl
  · exact .inl rfl
  · cases x with
    | error e => exact .inr rfl
    | ok a => exact hf a

theorem Below.eq {α : Type} {x y : Res α} (h : Below x y) (hx : x ≠ .error .fuel) : y = x := by
  rcases h with h | h
  · exact absurd h hx
  · exact h.symm

/-- If more steps never change an answer and there is an answer for some number of steps then it is the answer. -/
theorem settled {α : Type} {f : Nat → Res α} (hm : ∀ n, Below (f n) (f (n + 1))) {N : Nat} (hN : f N ≠ .error .fuel) :
    ∀ n, N ≤ n → f n = f N := by
  intro n hn
  obtain ⟨k, rfl⟩ := Nat.exists_eq_add_of_le hn
  induction k with
  | zero => rfl
  | succ k ih =>
    have h1 := ih (by omega)
    have := (hm (N + k)).eq (by rw [h1]; exact hN)
    rw [show N + (k + 1) = N + k + 1 by omega, this, h1]

section Mono

theorem detTransitions_mono {visit visit' : State F → List (State F) → Res (Visit (DetFailure F) F)}
    (hv : ∀ s p, Below (visit s p) (visit' s p)) (ts : TS F) (s : State F) (a : String) :
    ∀ (tl : List (Transition F)) (fed : F) (p : List (State F)),
    Below (detTransitions visit ts s a tl fed p) (detTransitions visit' ts s a tl fed p)
  | [], _, _ => .refl _
  | t :: tl, fed, p => by
    unfold detTransitions
    cases t.useTransition s with
    | mk b ns =>
      cases b with
      | false => exact detTransitions_mono hv ts s a tl fed p
      | true =>
        dsimp only
        split
        · exact .refl _
        · refine (Below.refl _).bind fun ns => (hv _ _).bind fun r => ?_
          obtain ⟨x, q⟩ := r
          cases x with
          | some x => exact .refl _
          | none => exact detTransitions_mono hv ts s a tl _ q

theorem detActions_mono {visit visit' : State F → List (State F) → Res (Visit (DetFailure F) F)}
    (hv : ∀ s p, Below (visit s p) (visit' s p)) (ts : TS F) (s : State F) :
    ∀ (as : List String) (p : List (State F)), Below (detActions visit ts s as p) (detActions visit' ts s as p)
  | [], _ => .refl _
  | a :: as, p => by
    unfold detActions
    refine (Below.refl _).bind fun trans => (detTransitions_mono hv ts s a trans _ p).bind fun r => ?_
    obtain ⟨x, q⟩ := r
    cases x with
    | some x => exact .refl _
    | none => exact detActions_mono hv ts s as q

theorem detHelper_mono (ts : TS F) (ord : Nat → List String) : ∀ (fuel : Nat) (s : State F) (p : List (State F)),
    Below (detHelper ts ord fuel s p) (detHelper ts ord (fuel + 1) s p)
  | 0, _, _ => .cut _
  | fuel + 1, s, p => by
    rw [detHelper, detHelper]
    split
    · exact .refl _
    · exact detActions_mono (detHelper_mono ts ord fuel) ts s _ _

theorem checkDeterminism_mono (ts : TS F) (ord : Nat → List String) (fuel : Nat) :
    Below (checkDeterminism ts ord fuel) (checkDeterminism ts ord (fuel + 1)) := by
  unfold checkDeterminism
  refine (Below.refl _).bind fun o => ?_
  cases o with
  | none => exact .refl _
  | some s => exact (detHelper_mono ts ord fuel _ _).bind fun _ => .refl _

theorem consInputTransitions_mono {visit visit' : State F → List (State F) → Res (Visit (ConsFailure F) F)}
    (hv : ∀ s p, Below (visit s p) (visit' s p)) (ts : TS F) (s : State F) :
    ∀ (tl : List (Transition F)) (p : List (State F)),
    Below (consInputTransitions visit ts s tl p) (consInputTransitions visit' ts s tl p)
  | [], _ => .refl _
  | t :: tl, p => by
    unfold consInputTransitions
    cases t.useTransition s with
    | mk b ns =>
      cases b with
      | false => exact consInputTransitions_mono hv ts s tl p
      | true =>
        refine (Below.refl _).bind fun ns => (hv _ _).bind fun r => ?_
        obtain ⟨x, q⟩ := r
        cases x with
        | some x => exact .refl _
        | none => exact consInputTransitions_mono hv ts s tl q

theorem consInputs_mono {visit visit' : State F → List (State F) → Res (Visit (ConsFailure F) F)}
    (hv : ∀ s p, Below (visit s p) (visit' s p)) (ts : TS F) (s : State F) :
    ∀ (as : List String) (p : List (State F)), Below (consInputs visit ts s as p) (consInputs visit' ts s as p)
  | [], _ => .refl _
  | a :: as, p => by
    unfold consInputs
    refine (Below.refl _).bind fun trans => (consInputTransitions_mono hv ts s trans p).bind fun r => ?_
    obtain ⟨x, q⟩ := r
    cases x with
    | some x => exact .refl _
    | none => exact consInputs_mono hv ts s as q

theorem consOutputTransitions_mono {visit visit' : State F → List (State F) → Res (Visit (ConsFailure F) F)}
    (hv : ∀ s p, Below (visit s p) (visit' s p)) (ts : TS F) (s : State F) :
    ∀ (tl : List (Transition F)) (p : List (State F)),
    Below (consOutputTransitions visit ts s tl p) (consOutputTransitions visit' ts s tl p)
  | [], _ => .refl _
  | t :: tl, p => by
    unfold consOutputTransitions
    cases t.useTransition s with
    | mk b ns =>
      cases b with
      | false => exact consOutputTransitions_mono hv ts s tl p
      | true =>
        refine (Below.refl _).bind fun ns => (hv _ _).bind fun r => ?_
        obtain ⟨x, q⟩ := r
        cases x with
        | none => exact .refl _
        | some x => exact consOutputTransitions_mono hv ts s tl q

theorem consOutputs_mono {visit visit' : State F → List (State F) → Res (Visit (ConsFailure F) F)}
    (hv : ∀ s p, Below (visit s p) (visit' s p)) (ts : TS F) (s : State F) :
    ∀ (as : List String) (p : List (State F)), Below (consOutputs visit ts s as p) (consOutputs visit' ts s as p)
  | [], _ => .refl _
  | a :: as, p => by
    unfold consOutputs
    refine (Below.refl _).bind fun trans => (consOutputTransitions_mono hv ts s trans p).bind fun r => ?_
    obtain ⟨x, q⟩ := r
    cases x with
    | true => exact .refl _
    | false => exact consOutputs_mono hv ts s as q

theorem consHelper_mono (ts : TS F) (ordI ordO : Nat → List String) :
    ∀ (fuel : Nat) (s : State F) (p : List (State F)),
    Below (consHelper ts ordI ordO fuel s p) (consHelper ts ordI ordO (fuel + 1) s p)
  | 0, _, _ => .cut _
  | fuel + 1, s, p => by
    rw [consHelper, consHelper]
    split
    · exact .refl _
    · split
      · exact .refl _
      · split
        · exact .refl _
        · refine (consInputs_mono (consHelper_mono ts ordI ordO fuel) ts s _ _).bind fun r => ?_
          obtain ⟨x, q⟩ := r
          cases x with
          | some x => exact .refl _
          | none =>
            dsimp only
            split
            · exact .refl _
            · refine (consOutputs_mono (consHelper_mono ts ordI ordO fuel) ts s _ _).bind fun r => ?_
              obtain ⟨x, q⟩ := r
              cases x <;> exact .refl _

theorem isLeastConsistent_mono (ts : TS F) (ordI ordO : Nat → List String) (fuel : Nat) :
    Below (isLeastConsistent ts ordI ordO fuel) (isLeastConsistent ts ordI ordO (fuel + 1)) := by
  unfold isLeastConsistent
  refine (Below.refl _).bind fun o => ?_
  cases o with
  | none => exact .refl _
  | some s => exact (Below.refl _).bind fun s => (consHelper_mono ts ordI ordO fuel _ _).bind fun _ => .refl _

theorem Sys.checkDet_mono : ∀ (s : Sys F) (ord : List Bool → Orders) (fuel : Nat),
    Below (s.checkDet ord fuel) (s.checkDet ord (fuel + 1))
  | .comp c, ord, fuel => checkDeterminism_mono _ _ _
  | .composition l r _ _ _ _ _, ord, fuel => by
    unfold Sys.checkDet
    refine (l.checkDet_mono _ _).bind fun o => ?_
    cases o with
    | some f => exact .refl _
    | none => exact r.checkDet_mono _ _
  | .conjunction l r _ _, ord, fuel => by
    unfold Sys.checkDet
    refine (l.checkDet_mono _ _).bind fun o => ?_
    cases o with
    | some f => exact .refl _
    | none => exact r.checkDet_mono _ _
  | .quotient l r _ _ _ _, ord, fuel => by
    unfold Sys.checkDet
    refine (l.checkDet_mono _ _).bind fun o => ?_
    cases o with
    | some f => exact .refl _
    | none => exact r.checkDet_mono _ _

theorem Sys.checkCons_mono : ∀ (s : Sys F) (ord : List Bool → Orders) (fuel : Nat),
    Below (s.checkCons ord fuel) (s.checkCons ord (fuel + 1))
  | .comp c, ord, fuel => isLeastConsistent_mono _ _ _ _
  | .composition l r _ _ _ _ _, ord, fuel => by
    unfold Sys.checkCons
    refine (l.checkCons_mono _ _).bind fun o => ?_
    cases o with
    | some f => exact .refl _
    | none => exact r.checkCons_mono _ _
  | .conjunction l r _ _, ord, fuel => by
    unfold Sys.checkCons
    refine (l.checkCons_mono _ _).bind fun o => ?_
    cases o with
    | some f => exact .refl _
    | none => exact r.checkCons_mono _ _
  | .quotient l r _ _ _ _, ord, fuel => by
    unfold Sys.checkCons
    refine (r.checkCons_mono _ _).bind fun o => ?_
    cases o with
    | some f => exact .refl _
    | none => exact l.checkCons_mono _ _

theorem Sys.precheck_mono (s : Sys F) (ord : List Bool → Orders) (fuel : Nat) :
    Below (s.precheck ord fuel) (s.precheck ord (fuel + 1)) := by
  unfold Sys.precheck
  refine (s.checkDet_mono _ _).bind fun o => ?_
  cases o with
  | some f => exact .refl _
  | none => exact s.checkCons_mono _ _

theorem searchLoop_mono (ts : TS F) (extra : Bounds) (actions : List String) (start goal : State F) :
    ∀ (fuel : Nat) (st : Search F),
    Below (searchLoop ts extra actions start goal fuel st) (searchLoop ts extra actions start goal (fuel + 1) st)
  | 0, _ => .cut _
  | fuel + 1, st => by
    rw [searchLoop, searchLoop]
    split
    · exact .refl _
    · refine (Below.refl _).bind fun b => ?_
      cases b with
      | true => exact .refl _
      | false =>
        refine Below.bind (.refl _) fun st => ?_
        exact searchLoop_mono ts extra actions start goal fuel st

theorem findPath_mono (zb : F → Bounds) (ts : TS F) (start goal : State F) (fuel : Nat) :
    Below (findPath zb ts start goal fuel) (findPath zb ts start goal (fuel + 1)) := by
  unfold findPath
  split
  · exact .refl _
  · exact searchLoop_mono _ _ _ _ _ _ _

theorem Refine.mainLoop_mono (ts1 ts2 : TS F) (ordO ordI : List String) : ∀ (fuel : Nat) (c : RefCtx F),
    Below (Refine.mainLoop ts1 ts2 ordO ordI fuel c) (Refine.mainLoop ts1 ts2 ordO ordI (fuel + 1) c)
  | 0, _ => .cut _
  | fuel + 1, c => by
    rw [Refine.mainLoop, Refine.mainLoop]
    split
    · exact .refl _
    · refine (Below.refl _).bind fun x => ?_
      obtain ⟨p, w⟩ := x
      refine (Below.refl _).bind fun cur => (Below.refl _).bind fun r => ?_
      obtain ⟨f, c⟩ := r
      cases f with
      | some f => exact .refl _
      | none =>
        refine Below.bind (.refl _) fun r => ?_
        obtain ⟨f, c⟩ := r
        cases f with
        | some f => exact .refl _
        | none => exact Refine.mainLoop_mono ts1 ts2 ordO ordI fuel c

theorem Refine.explore_mono (ts1 ts2 : TS F) (ordO ordI : List String) (fuel : Nat) :
    Below (Refine.explore ts1 ts2 ordO ordI fuel) (Refine.explore ts1 ts2 ordO ordI (fuel + 1)) := by
  unfold Refine.explore
  refine (Below.refl _).bind fun o => ?_
  cases o with
  | none => exact .refl _
  | some l1 =>
    refine (Below.refl _).bind fun o => ?_
    cases o with
    | none => exact .refl _
    | some l2 =>
      dsimp only
      split
      · exact .refl _
      · refine (Below.refl _).bind fun p => ?_
        refine (Refine.mainLoop_mono ts1 ts2 ordO ordI fuel _).bind fun _ => .refl _

theorem checkRefinement_mono (s1 s2 : Sys F) (ord1 ord2 : List Bool → Orders) (ordO ordI : List String) (fuel : Nat) :
    Below (checkRefinement s1 s2 ord1 ord2 ordO ordI fuel) (checkRefinement s1 s2 ord1 ord2 ordO ordI (fuel + 1)) := by
  unfold checkRefinement
  refine (s1.precheck_mono _ _).bind fun o => ?_
  cases o with
  | some f => exact .refl _
  | none =>
    refine (s2.precheck_mono _ _).bind fun o => ?_
    cases o with
    | some f => exact .refl _
    | none =>
      dsimp only
      split
      · exact .refl _
      · exact Refine.explore_mono _ _ _ _ _

end Mono

/-! ## There are finitely many extrapolated states -/

/-- All extrapolated sets of valuations over a set of places. -/
def Keys (F : Type) [ZoneLib F] {I : Type} (S : Set I) (β : I → Bounds) : Set (I × Set Val) :=
  {k | k.1 ∈ S ∧ k.2 ∈ Set.range fun z : F => den (extrapolate z (β k.1))}

theorem Keys.finite (hfin : FiniteExtrapolation F) {I : Type} {S : Set I} (hS : S.Finite) (β : I → Bounds) :
    (Keys F S β).Finite := by
  refine (hS.biUnion fun i _ => ((hfin (β i)).image (Prod.mk i))).subset ?_
  rintro ⟨i, X⟩ ⟨h1, h2⟩
  simp only [Set.mem_iUnion]
  exact ⟨i, h1, X, h2, rfl⟩

/-- Fewer remain when one more is covered. -/
theorem remain_lt {K : Type} {A C D : Set K} (hA : A.Finite) (hCD : ∀ k ∈ A, k ∈ C → k ∈ D) {k : K} (hk : k ∈ A)
    (hC : k ∉ C) (hD : k ∈ D) : (A \ D).ncard < (A \ C).ncard := by
  refine Set.ncard_lt_ncard ⟨fun x hx => ⟨hx.1, fun h => hx.2 (hCD x hx.1 h)⟩, fun h => ?_⟩ (hA.subset Set.sdiff_subset)
  exact (h ⟨hk, hC⟩).2 hD

theorem remain_le {K : Type} {A C D : Set K} (hA : A.Finite) (hCD : ∀ k ∈ A, k ∈ C → k ∈ D) :
    (A \ D).ncard ≤ (A \ C).ncard :=
  Set.ncard_le_ncard (fun _ hx => ⟨hx.1, fun h => hx.2 (hCD _ hx.1 h)⟩) (hA.subset Set.sdiff_subset)

/-- What the searches need of a transition system: finitely many places, from which every step leads to another and
nothing fails. -/
structure TS.Tame (ts : TS F) (S : Set (LocTree F)) (β : LocTree F → Bounds) : Prop where
  finite : S.Finite
  bounds : ∀ l ∈ S, ts.localBounds l = .ok (β l)
  next : ∀ l ∈ S, ∀ a, a ∈ ts.inputs ∨ a ∈ ts.outputs → ∃ tr, ts.next l a = .ok tr ∧ ∀ t ∈ tr, t.target ∈ S

theorem Sys.Good.tame {s : Sys F} (h : s.Good) : ∃ β, s.ts.Tame {l | s.IsLoc l} β := by
  classical
  refine ⟨fun l => if hl : s.IsLoc l then Classical.choose (h.bounds l hl) else fun _ => none, ?_, ?_, ?_⟩
  · obtain ⟨ls, _, hls⟩ := h.all
    refine (List.finite_toSet ls).subset fun l hl => (hls l).2 hl
  · intro l hl
    rw [dif_pos (show s.IsLoc l from hl)]
    exact Classical.choose_spec (h.bounds l hl)
  · intro l hl a ha
    obtain ⟨tr, h1, h2⟩ := h.next l a hl (Sys.hasAction_iff.2 ha)
    exact ⟨tr, h1, fun t ht => (h2 t ht).1⟩

theorem useTransition_target {t : Transition F} {s ns : State F} (h : t.useTransition s = (true, ns)) :
    ns.loc = t.target := by
  unfold Transition.useTransition at h
  dsimp only at h
  repeat' split at h
  all_goals first | (cases h; rfl) | (cases h)

section DFS
variable {ts : TS F} {S : Set (LocTree F)} {β : LocTree F → Bounds} {A : Set (LocTree F × Set Val)}

/-- The keys covered by a list of states. -/
def CovKeys (p : List (State F)) : Set (LocTree F × Set Val) :=
  {k | ∃ q ∈ p, k.1.eqv q.loc = true ∧ k.2 ⊆ den q.zone}

/-- The recursive call answers for later lists. -/
def Answers {X : Type} (visit : State F → List (State F) → Res (Option X × List (State F)))
    (A : Set (LocTree F × Set Val)) (p₀ : List (State F)) : Prop :=
  ∀ s p, (s.loc, den s.zone) ∈ A → p₀ ⊆ p → ∃ r, visit s p = .ok r ∧ p ⊆ r.2

theorem extrapolate_key (hT : ts.Tame S β) (hA : Keys F S β ⊆ A) {s : State F} (hs : s.loc ∈ S) :
    ∃ ns, s.extrapolate ts = .ok ns ∧ ns.loc = s.loc ∧ (ns.loc, den ns.zone) ∈ A := by
  refine ⟨⟨s.loc, ZoneLib.extrapolate s.zone (β s.loc)⟩, ?_, rfl, hA ⟨hs, s.zone, rfl⟩⟩
  unfold State.extrapolate
  rw [hT.bounds _ hs]; rfl

theorem detTransitions_answers (hT : ts.Tame S β) (hA : Keys F S β ⊆ A)
    {visit : State F → List (State F) → Res (Visit (DetFailure F) F)} {p₀ : List (State F)}
    (hv : Answers visit A p₀) {s : State F} {a : String} :
    ∀ (tl : List (Transition F)) (fed : F) (p : List (State F)), (∀ t ∈ tl, t.target ∈ S) → p₀ ⊆ p →
    ∃ r, detTransitions visit ts s a tl fed p = .ok r ∧ p ⊆ r.2
  | [], _, p, _, _ => ⟨_, rfl, fun _ h => h⟩
  | t :: tl, fed, p, ht, hp => by
    unfold detTransitions
    cases hu : t.useTransition s with
    | mk b ns =>
      cases b with
      | false => exact detTransitions_answers hT hA hv tl fed p (fun t h => ht t (.tail _ h)) hp
      | true =>
        dsimp only
        split
        · exact ⟨_, rfl, fun _ h => h⟩
        · obtain ⟨ns', e1, _, e2⟩ := extrapolate_key hT hA (s := ns) (by rw [useTransition_target hu]; exact ht t (.head _))
          obtain ⟨⟨x, q⟩, e3, e4⟩ := hv ns' p e2 hp
          rw [e1, ok_bind, e3, ok_bind]
          cases x with
          | some x => exact ⟨_, rfl, e4⟩
          | none =>
            obtain ⟨r, e5, e6⟩ := detTransitions_answers hT hA hv tl (append fed (s.loc.applyInvariants t.allowed)) q
              (fun t h => ht t (.tail _ h)) (List.Subset.trans hp e4)
            exact ⟨r, e5, List.Subset.trans e4 e6⟩

theorem detActions_answers (hT : ts.Tame S β) (hA : Keys F S β ⊆ A)
    {visit : State F → List (State F) → Res (Visit (DetFailure F) F)} {p₀ : List (State F)}
    (hv : Answers visit A p₀) {s : State F} (hs : s.loc ∈ S) :
    ∀ (as : List String) (p : List (State F)), (∀ a ∈ as, a ∈ ts.inputs ∨ a ∈ ts.outputs) → p₀ ⊆ p →
    ∃ r, detActions visit ts s as p = .ok r ∧ p ⊆ r.2
  | [], p, _, _ => ⟨_, rfl, fun _ h => h⟩
  | a :: as, p, ha, hp => by
    unfold detActions
    obtain ⟨tr, e1, e2⟩ := hT.next s.loc hs a (ha a (.head _))
    obtain ⟨⟨x, q⟩, e3, e4⟩ := detTransitions_answers hT hA hv (s := s) (a := a) tr empty p e2 hp
    rw [e1, ok_bind, e3, ok_bind]
    cases x with
    | some x => exact ⟨_, rfl, e4⟩
    | none =>
      obtain ⟨r, e5, e6⟩ := detActions_answers hT hA hv hs as q (fun a h => ha a (.tail _ h)) (List.Subset.trans hp e4)
      exact ⟨r, e5, List.Subset.trans e4 e6⟩

theorem covKeys_mono {p q : List (State F)} (h : p ⊆ q) : CovKeys p ⊆ CovKeys q :=
  fun _ ⟨x, hx, h'⟩ => ⟨x, h hx, h'⟩

theorem covKeys_self {p : List (State F)} {s : State F} : (s.loc, den s.zone) ∈ CovKeys (p ++ [s]) :=
  ⟨s, by simp, eqv_refl _, subset_rfl⟩

theorem detHelper_answers (hT : ts.Tame S β) (hA : Keys F S β ⊆ A) (hfin : A.Finite) (hAS : ∀ k ∈ A, k.1 ∈ S)
    {ord : Nat → List String} (hord : ∀ k, ∀ a ∈ ord k, a ∈ ts.inputs ∨ a ∈ ts.outputs) :
    ∀ (n : Nat) (s : State F) (p : List (State F)), (s.loc, den s.zone) ∈ A → (A \ CovKeys p).ncard ≤ n →
    ∃ r, detHelper ts ord (n + 1) s p = .ok r ∧ p ⊆ r.2 := by
  intro n
  induction n with
  | zero =>
    intro s p hs hn
    rw [detHelper]
    split
    · exact ⟨_, rfl, fun _ h => h⟩
    · rename_i hc
      rw [Bool.not_eq_true, ← Bool.not_eq_true, isContainedIn_iff] at hc
      have := remain_lt hfin (C := CovKeys p) (D := CovKeys (p ++ [s])) (fun k _ h => covKeys_mono (by simp) h) hs hc
        covKeys_self
      omega
  | succ n ih =>
    intro s p hs hn
    rw [detHelper]
    split
    · exact ⟨_, rfl, fun _ h => h⟩
    · rename_i hc
      rw [Bool.not_eq_true, ← Bool.not_eq_true, isContainedIn_iff] at hc
      have hlt := remain_lt hfin (C := CovKeys p) (D := CovKeys (p ++ [s])) (fun k _ h => covKeys_mono (by simp) h) hs hc
        covKeys_self
      obtain ⟨r, e1, e2⟩ := detActions_answers hT hA (p₀ := p ++ [s]) (visit := detHelper ts ord (n + 1))
        (fun s' p' h1 h2 => ih s' p' h1
          (by have := remain_le hfin (C := CovKeys (p ++ [s])) (D := CovKeys p') (fun k _ h => covKeys_mono h2 h); omega))
        (hAS _ hs) (ord p.length) (p ++ [s]) (hord _) (fun _ h => h)
      exact ⟨r, e1, List.Subset.trans (by simp) e2⟩

theorem consInputTransitions_answers (hT : ts.Tame S β) (hA : Keys F S β ⊆ A)
    {visit : State F → List (State F) → Res (Visit (ConsFailure F) F)} {p₀ : List (State F)}
    (hv : Answers visit A p₀) {s : State F} :
    ∀ (tl : List (Transition F)) (p : List (State F)), (∀ t ∈ tl, t.target ∈ S) → p₀ ⊆ p →
    ∃ r, consInputTransitions visit ts s tl p = .ok r ∧ p ⊆ r.2
  | [], p, _, _ => ⟨_, rfl, fun _ h => h⟩
  | t :: tl, p, ht, hp => by
    unfold consInputTransitions
    cases hu : t.useTransition s with
    | mk b ns =>
      cases b with
      | false => exact consInputTransitions_answers hT hA hv tl p (fun t h => ht t (.tail _ h)) hp
      | true =>
        dsimp only
        obtain ⟨ns', e1, _, e2⟩ := extrapolate_key hT hA (s := ns) (by rw [useTransition_target hu]; exact ht t (.head _))
        obtain ⟨⟨x, q⟩, e3, e4⟩ := hv ns' p e2 hp
        rw [e1, ok_bind, e3, ok_bind]
        cases x with
        | some x => exact ⟨_, rfl, e4⟩
        | none =>
          obtain ⟨r, e5, e6⟩ := consInputTransitions_answers hT hA hv tl q (fun t h => ht t (.tail _ h)) (List.Subset.trans hp e4)
          exact ⟨r, e5, List.Subset.trans e4 e6⟩

theorem consInputs_answers (hT : ts.Tame S β) (hA : Keys F S β ⊆ A)
    {visit : State F → List (State F) → Res (Visit (ConsFailure F) F)} {p₀ : List (State F)}
    (hv : Answers visit A p₀) {s : State F} (hs : s.loc ∈ S) :
    ∀ (as : List String) (p : List (State F)), (∀ a ∈ as, a ∈ ts.inputs ∨ a ∈ ts.outputs) → p₀ ⊆ p →
    ∃ r, consInputs visit ts s as p = .ok r ∧ p ⊆ r.2
  | [], p, _, _ => ⟨_, rfl, fun _ h => h⟩
  | a :: as, p, ha, hp => by
    unfold consInputs
    obtain ⟨tr, e1, e2⟩ := hT.next s.loc hs a (ha a (.head _))
    obtain ⟨⟨x, q⟩, e3, e4⟩ := consInputTransitions_answers hT hA hv (s := s) tr p e2 hp
    rw [e1, ok_bind, e3, ok_bind]
    cases x with
    | some x => exact ⟨_, rfl, e4⟩
    | none =>
      obtain ⟨r, e5, e6⟩ := consInputs_answers hT hA hv hs as q (fun a h => ha a (.tail _ h)) (List.Subset.trans hp e4)
      exact ⟨r, e5, List.Subset.trans e4 e6⟩

theorem consOutputTransitions_answers (hT : ts.Tame S β) (hA : Keys F S β ⊆ A)
    {visit : State F → List (State F) → Res (Visit (ConsFailure F) F)} {p₀ : List (State F)}
    (hv : Answers visit A p₀) {s : State F} :
    ∀ (tl : List (Transition F)) (p : List (State F)), (∀ t ∈ tl, t.target ∈ S) → p₀ ⊆ p →
    ∃ r, consOutputTransitions visit ts s tl p = .ok r ∧ p ⊆ r.2
  | [], p, _, _ => ⟨_, rfl, fun _ h => h⟩
  | t :: tl, p, ht, hp => by
    unfold consOutputTransitions
    cases hu : t.useTransition s with
    | mk b ns =>
      cases b with
      | false => exact consOutputTransitions_answers hT hA hv tl p (fun t h => ht t (.tail _ h)) hp
      | true =>
        dsimp only
        obtain ⟨ns', e1, _, e2⟩ := extrapolate_key hT hA (s := ns) (by rw [useTransition_target hu]; exact ht t (.head _))
        obtain ⟨⟨x, q⟩, e3, e4⟩ := hv ns' p e2 hp
        rw [e1, ok_bind, e3, ok_bind]
        cases x with
        | none => exact ⟨_, rfl, e4⟩
        | some x =>
          obtain ⟨r, e5, e6⟩ := consOutputTransitions_answers hT hA hv tl q (fun t h => ht t (.tail _ h)) (List.Subset.trans hp e4)
          exact ⟨r, e5, List.Subset.trans e4 e6⟩

theorem consOutputs_answers (hT : ts.Tame S β) (hA : Keys F S β ⊆ A)
    {visit : State F → List (State F) → Res (Visit (ConsFailure F) F)} {p₀ : List (State F)}
    (hv : Answers visit A p₀) {s : State F} (hs : s.loc ∈ S) :
    ∀ (as : List String) (p : List (State F)), (∀ a ∈ as, a ∈ ts.inputs ∨ a ∈ ts.outputs) → p₀ ⊆ p →
    ∃ r, consOutputs visit ts s as p = .ok r ∧ p ⊆ r.2
  | [], p, _, _ => ⟨_, rfl, fun _ h => h⟩
  | a :: as, p, ha, hp => by
    unfold consOutputs
    obtain ⟨tr, e1, e2⟩ := hT.next s.loc hs a (ha a (.head _))
    obtain ⟨⟨x, q⟩, e3, e4⟩ := consOutputTransitions_answers hT hA hv (s := s) tr p e2 hp
    rw [e1, ok_bind, e3, ok_bind]
    cases x with
    | true => exact ⟨_, rfl, e4⟩
    | false =>
      obtain ⟨r, e5, e6⟩ := consOutputs_answers hT hA hv hs as q (fun a h => ha a (.tail _ h)) (List.Subset.trans hp e4)
      exact ⟨r, e5, List.Subset.trans e4 e6⟩

theorem consHelper_answers (hT : ts.Tame S β) (hA : Keys F S β ⊆ A) (hfin : A.Finite) (hAS : ∀ k ∈ A, k.1 ∈ S)
    {ordI ordO : Nat → List String} (hI : ∀ k, ∀ a ∈ ordI k, a ∈ ts.inputs ∨ a ∈ ts.outputs)
    (hO : ∀ k, ∀ a ∈ ordO k, a ∈ ts.inputs ∨ a ∈ ts.outputs) :
    ∀ (n : Nat) (s : State F) (p : List (State F)), (s.loc, den s.zone) ∈ A → (A \ CovKeys p).ncard ≤ n →
    ∃ r, consHelper ts ordI ordO (n + 1) s p = .ok r ∧ p ⊆ r.2 := by
  intro n
  induction n with
  | zero =>
    intro s p hs hn
    rw [consHelper]
    split
    · exact ⟨_, rfl, fun _ h => h⟩
    · rename_i hc
      rw [Bool.not_eq_true, ← Bool.not_eq_true, isContainedIn_iff] at hc
      have := remain_lt hfin (C := CovKeys p) (D := CovKeys (p ++ [s])) (fun k _ h => covKeys_mono (by simp) h) hs hc
        covKeys_self
      omega
  | succ n ih =>
    intro s p hs hn
    rw [consHelper]
    split
    · exact ⟨_, rfl, fun _ h => h⟩
    · rename_i hc
      rw [Bool.not_eq_true, ← Bool.not_eq_true, isContainedIn_iff] at hc
      have hlt := remain_lt hfin (C := CovKeys p) (D := CovKeys (p ++ [s])) (fun k _ h => covKeys_mono (by simp) h) hs hc
        covKeys_self
      have hv : Answers (consHelper ts ordI ordO (n + 1)) A (p ++ [s]) := fun s' p' h1 h2 => ih s' p' h1
        (by have := remain_le hfin (C := CovKeys (p ++ [s])) (D := CovKeys p') (fun k _ h => covKeys_mono h2 h); omega)
      have hpp : p ⊆ p ++ [s] := by simp
      split
      · exact ⟨_, rfl, fun _ h => h⟩
      · split
        · exact ⟨_, rfl, fun _ h => h⟩
        · obtain ⟨⟨x, q⟩, e1, e2⟩ := consInputs_answers hT hA hv (hAS _ hs) (ordI p.length) (p ++ [s]) (hI _)
            (fun _ h => h)
          rw [e1, ok_bind]
          cases x with
          | some x => exact ⟨_, rfl, List.Subset.trans hpp e2⟩
          | none =>
            dsimp only
            split
            · exact ⟨_, rfl, List.Subset.trans hpp e2⟩
            · obtain ⟨⟨x, q'⟩, e3, e4⟩ := consOutputs_answers hT hA hv (hAS _ hs) (ordO p.length) q (hO _) e2
              rw [e3, ok_bind]
              cases x <;> exact ⟨_, rfl, List.Subset.trans hpp (List.Subset.trans e2 e4)⟩

end DFS

theorem Sys.checkDeterminism_ends {s : Sys F} (hs : s.Good) (hfin : FiniteExtrapolation F) {ord : Nat → List String}
    (hord : ∀ k, ∀ a ∈ ord k, a ∈ s.ts.inputs ∨ a ∈ s.ts.outputs) :
    ∃ N r, ∀ fuel, N ≤ fuel → checkDeterminism s.ts ord fuel = .ok r := by
  suffices h : ∃ N r, checkDeterminism s.ts ord N = .ok r by
    obtain ⟨N, r, h⟩ := h
    exact ⟨N, r, fun n hn => (settled (checkDeterminism_mono s.ts ord) (N := N) (by rw [h]; simp) n hn).trans h⟩
  obtain ⟨β, hT⟩ := hs.tame
  obtain ⟨o, ho, hl⟩ := hs.initial
  cases o with
  | none =>
    have h0 : s.initialState = .ok none := by unfold Sys.initialState; rw [ho]; rfl
    refine ⟨0, none, ?_⟩
    unfold checkDeterminism
    rw [show s.ts.initialState = .ok none from h0]; rfl
  | some l =>
    rcases Sys.initialState_spec ho with ⟨h0, _⟩ | ⟨z, h0, _⟩
    · refine ⟨0, none, ?_⟩
      unfold checkDeterminism
      rw [show s.ts.initialState = .ok none from h0]; rfl
    · let A : Set (LocTree F × Set Val) := insert (l, den (univ : F)) (Keys F {l | s.IsLoc l} β)
      have hA : A.Finite := (Keys.finite hfin hT.finite β).insert _
      obtain ⟨r, e1, _⟩ := detHelper_answers hT (A := A) (Set.subset_insert _ _) hA
        (by rintro k (rfl | hk); exacts [hl _ rfl, hk.1]) hord (A \ CovKeys []).ncard ⟨l, univ⟩ [] (Set.mem_insert _ _) le_rfl
      refine ⟨(A \ CovKeys []).ncard + 1, r.1, ?_⟩
      unfold checkDeterminism
      rw [show s.ts.initialState = .ok (some ⟨l, z⟩) from h0, ok_bind]
      dsimp only
      rw [e1]; rfl

theorem Sys.isLeastConsistent_ends {s : Sys F} (hs : s.Good) (hfin : FiniteExtrapolation F)
    {ordI ordO : Nat → List String} (hI : ∀ k, ∀ a ∈ ordI k, a ∈ s.ts.inputs ∨ a ∈ s.ts.outputs)
    (hO : ∀ k, ∀ a ∈ ordO k, a ∈ s.ts.inputs ∨ a ∈ s.ts.outputs) :
    ∃ N r, ∀ fuel, N ≤ fuel → isLeastConsistent s.ts ordI ordO fuel = .ok r := by
  suffices h : ∃ N r, isLeastConsistent s.ts ordI ordO N = .ok r by
    obtain ⟨N, r, h⟩ := h
    exact ⟨N, r, fun n hn => (settled (isLeastConsistent_mono s.ts ordI ordO) (N := N) (by rw [h]; simp) n hn).trans h⟩
  obtain ⟨β, hT⟩ := hs.tame
  obtain ⟨o, ho, hl⟩ := hs.initial
  cases o with
  | none =>
    have h0 : s.initialState = .ok none := by unfold Sys.initialState; rw [ho]; rfl
    refine ⟨0, some .noInitialState, ?_⟩
    · unfold isLeastConsistent
      rw [show s.ts.initialState = .ok none from h0]; rfl
  | some l =>
    rcases Sys.initialState_spec ho with ⟨h0, _⟩ | ⟨z, h0, _⟩
    · refine ⟨0, some .noInitialState, ?_⟩
      · unfold isLeastConsistent
        rw [show s.ts.initialState = .ok none from h0]; rfl
    · have hA : (Keys F {l | s.IsLoc l} β).Finite := Keys.finite hfin hT.finite β
      obtain ⟨ns, e0, _, e2⟩ := extrapolate_key hT (A := Keys F {l | s.IsLoc l} β) subset_rfl (s := ⟨l, z⟩) (hl l rfl)
      obtain ⟨r, e1, _⟩ := consHelper_answers hT subset_rfl hA (fun k hk => hk.1) hI hO
        (Keys F {l | s.IsLoc l} β \ CovKeys []).ncard ns [] e2 le_rfl
      refine ⟨(Keys F {l | s.IsLoc l} β \ CovKeys []).ncard + 1, r.1, ?_⟩
      unfold isLeastConsistent
      rw [show s.ts.initialState = .ok (some ⟨l, z⟩) from h0, ok_bind]
      dsimp only
      rw [e0, ok_bind, e1]; rfl

/-! ## Reachability -/

section Reach
variable {ts : TS F} {S : Set (LocTree F)} {β : LocTree F → Bounds} {A : Set (LocTree F × Set Val)}

/-- The keys covered by the visited zones. -/
def SeenKeys (m : List (LocId × List F)) : Set (LocTree F × Set Val) :=
  {k | ∃ z ∈ visitedZones m k.1.id, k.2 ⊆ den z}

/-- How much there is left to do. -/
noncomputable def Search.left (A : Set (LocTree F × Set Val)) (st : Search F) : Nat :=
  st.frontier.length + (A \ SeenKeys st.visited).ncard

theorem takeTransition_ends (hT : ts.Tame S β) (extra : Bounds)
    (hA : Keys F S (fun l => (β l).add extra) ⊆ A) (hfin : A.Finite) (sp : SubPath F) (a : String) (t : Transition F)
    (ht : t.target ∈ S) (st : Search F) (hst : ∀ n ∈ st.frontier, n.dest.loc ∈ S) :
    ∃ st', takeTransition ts extra sp a t st = .ok st' ∧ st'.left A ≤ st.left A ∧ ∀ n ∈ st'.frontier, n.dest.loc ∈ S := by
  unfold takeTransition
  cases hu : t.useTransition sp.dest with
  | mk b ns =>
    cases b with
    | false => exact ⟨_, rfl, le_rfl, hst⟩
    | true =>
      have hl : ns.loc ∈ S := by rw [useTransition_target hu]; exact ht
      have e : ns.extrapolateWith ts extra = .ok ⟨ns.loc, ZoneLib.extrapolate ns.zone ((β ns.loc).add extra)⟩ := by
        unfold State.extrapolateWith
        rw [hT.bounds _ hl]; rfl
      dsimp only
      rw [e, ok_bind]
      dsimp only
      generalize hz : ZoneLib.extrapolate ns.zone ((β ns.loc).add extra) = z
      have hk : (ns.loc, den z) ∈ A := hA ⟨hl, ns.zone, by rw [← hz]⟩
      split
      · rename_i hex
        refine ⟨_, rfl, ?_, ?_⟩
        · unfold Search.left
          simp only [List.length_append, List.length_singleton]
          have := remain_lt hfin (C := SeenKeys st.visited)
            (D := SeenKeys (hmInsert ns.loc.id
              ((visitedZones st.visited ns.loc.id).filter (fun y => !(subsetEq y z)) ++ [z]) st.visited))
            (k := (ns.loc, den z)) ?_ hk ?_ ?_
          · omega
          · rintro k _ ⟨y, hy, hky⟩
            unfold SeenKeys
            simp only [Set.mem_ofPred_eq, visitedZones_insert]
            split
            · rename_i hid
              by_cases hs : subsetEq y z = true
              · exact ⟨z, by simp, hky.trans ((subsetEq_iff _ _).1 hs)⟩
              · refine ⟨y, ?_, hky⟩
                rw [hid] at hy
                simp only [List.mem_append, List.mem_filter]
                exact .inl ⟨hy, by simpa using hs⟩
            · exact ⟨y, hy, hky⟩
          · rintro ⟨y, hy, hky⟩
            have : ((visitedZones st.visited ns.loc.id).any fun y => subsetEq z y) = true :=
              List.any_eq_true.2 ⟨y, hy, (subsetEq_iff _ _).2 hky⟩
            rw [this] at hex
            simp at hex
          · refine ⟨z, ?_, subset_rfl⟩
            rw [visitedZones_insert]
            simp
        · intro n hn
          rcases List.mem_append.1 hn with hn | hn
          · exact hst n hn
          · rw [List.mem_singleton] at hn; subst hn; exact hl
      · refine ⟨_, rfl, ?_, hst⟩
        unfold Search.left
        have := remain_le hfin (C := SeenKeys st.visited)
          (D := SeenKeys (hmInsert ns.loc.id (visitedZones st.visited ns.loc.id) st.visited)) ?_
        · dsimp only; omega
        · rintro k _ ⟨y, hy, hky⟩
          refine ⟨y, ?_, hky⟩
          rw [visitedZones_insert]
          split
          · rename_i hid; rw [← hid]; exact hy
          · exact hy

theorem takeTransitions_ends (hT : ts.Tame S β) (extra : Bounds)
    (hA : Keys F S (fun l => (β l).add extra) ⊆ A) (hfin : A.Finite) (sp : SubPath F) (a : String) :
    ∀ (tl : List (Transition F)) (st : Search F), (∀ t ∈ tl, t.target ∈ S) → (∀ n ∈ st.frontier, n.dest.loc ∈ S) →
    ∃ st', takeTransitions ts extra sp a tl st = .ok st' ∧ st'.left A ≤ st.left A ∧ ∀ n ∈ st'.frontier, n.dest.loc ∈ S
  | [], st, _, hst => ⟨st, rfl, le_rfl, hst⟩
  | t :: tl, st, ht, hst => by
    obtain ⟨s1, e1, e2, e3⟩ := takeTransition_ends hT extra hA hfin sp a t (ht t (.head _)) st hst
    obtain ⟨s2, e4, e5, e6⟩ := takeTransitions_ends hT extra hA hfin sp a tl s1 (fun t h => ht t (.tail _ h)) e3
    refine ⟨s2, ?_, e5.trans e2, e6⟩
    rw [takeTransitions, e1, ok_bind, e4]

theorem takeActions_ends (hT : ts.Tame S β) (extra : Bounds)
    (hA : Keys F S (fun l => (β l).add extra) ⊆ A) (hfin : A.Finite) (sp : SubPath F) (hsp : sp.dest.loc ∈ S) :
    ∀ (as : List String) (st : Search F), (∀ a ∈ as, a ∈ ts.inputs ∨ a ∈ ts.outputs) →
    (∀ n ∈ st.frontier, n.dest.loc ∈ S) →
    ∃ st', takeActions ts extra sp as st = .ok st' ∧ st'.left A ≤ st.left A ∧ ∀ n ∈ st'.frontier, n.dest.loc ∈ S
  | [], st, _, hst => ⟨st, rfl, le_rfl, hst⟩
  | a :: as, st, ha, hst => by
    obtain ⟨tr, e0, e0'⟩ := hT.next _ hsp a (ha a (.head _))
    obtain ⟨s1, e1, e2, e3⟩ := takeTransitions_ends hT extra hA hfin sp a tr st e0' hst
    obtain ⟨s2, e4, e5, e6⟩ := takeActions_ends hT extra hA hfin sp hsp as s1 (fun t h => ha t (.tail _ h)) e3
    refine ⟨s2, ?_, e5.trans e2, e6⟩
    rw [takeActions, e0, ok_bind, e1, ok_bind, e4]

omit [ZoneLib F] in
theorem comparePartial_notCut (a b : LocTree F) : NotCut (a.comparePartial b) := by
  induction a generalizing b with
  | leaf i v ty =>
    rw [LocTree.comparePartial]
    · split <;> first | exact .ok _ | exact .panic _
    · intros; simp_all
  | node i v ty l r ihl ihr =>
    cases b with
    | leaf i' v' ty' =>
      rw [LocTree.comparePartial]
      · split <;> first | exact .ok _ | exact .panic _
      · intros; simp_all
    | node i' v' ty' l' r' =>
      cases i <;> cases i' <;> simp only [LocTree.comparePartial]
      all_goals first
        | exact .ok _
        | (refine (ihl l').bind fun b => ?_
           cases b
           · exact .ok _
           · exact ihr r')

theorem reachedEnd_notCut (cur goal : State F) : NotCut (reachedEnd cur goal) := by
  unfold reachedEnd
  refine (comparePartial_notCut _ _).bind fun b => ?_
  cases b <;> exact .ok _

theorem replay_notCut : ∀ (l : List (Transition F × String)) (s : State F), NotCut (replay l s)
  | [], _ => .ok _
  | (t, a) :: tl, s => by
    rw [replay]
    refine NotCut.bind ?_ fun o => ?_
    · unfold Decision.fromStateTransition
      dsimp only
      repeat' split
      all_goals first | exact .ok _ | exact .panic _
    · cases o with
      | none => exact .panic _
      | some d => exact (replay_notCut tl _).bind fun _ => .ok _

theorem searchLoop_ends (hT : ts.Tame S β) (extra : Bounds)
    (hA : Keys F S (fun l => (β l).add extra) ⊆ A) (hfin : A.Finite) {actions : List String}
    (hacts : ∀ a ∈ actions, a ∈ ts.inputs ∨ a ∈ ts.outputs) (start goal : State F) :
    ∀ (n : Nat) (st : Search F), (∀ n ∈ st.frontier, n.dest.loc ∈ S) → st.left A ≤ n →
    NotCut (searchLoop ts extra actions start goal (n + 1) st) := by
  intro n
  induction n with
  | zero =>
    intro st hst hn
    rw [searchLoop]
    have : st.frontier = [] := List.eq_nil_of_length_eq_zero (by unfold Search.left at hn; omega)
    rw [this]; exact .ok _
  | succ n ih =>
    intro st hst hn
    rw [searchLoop]
    split
    · exact .ok _
    · rename_i sp rest hf
      rw [hf] at hst
      refine (reachedEnd_notCut _ _).bind fun b => ?_
      cases b with
      | true => exact (replay_notCut _ _).bind fun _ => .ok _
      | false =>
        obtain ⟨s1, e1, e2, e3⟩ := takeActions_ends hT extra hA hfin sp (hst sp (.head _)) actions ⟨rest, st.visited⟩ hacts
          (fun n h => hst n (.tail _ h))
        simp only [Bool.false_eq_true, if_false]
        rw [e1, ok_bind]
        refine ih s1 e3 ?_
        unfold Search.left at hn e2
        rw [hf, List.length_cons] at hn
        unfold Search.left
        dsimp only at e2
        omega

end Reach

/-! ## Refinement -/

section Ref
variable {ts1 ts2 : TS F} {S1 S2 : Set (LocTree F)} {β1 β2 : LocTree F → Bounds}

/-- All keys of pairs. -/
def PairKeys (F : Type) [ZoneLib F] (S1 S2 : Set (LocTree F)) (β1 β2 : LocTree F → Bounds) :
    Set ((LocTree F × LocTree F) × Set Val) :=
  Keys F {k : LocTree F × LocTree F | k.1 ∈ S1 ∧ k.2 ∈ S2} (fun k => (β1 k.1).add (β2 k.2))

/-- The keys covered by the passed and the waiting pairs. -/
def DoneKeys (c : RefCtx F) : Set ((LocTree F × LocTree F) × Set Val) :=
  {k | (∃ f, c.passed.lookup (k.1.1.id, k.1.2.id) = some f ∧ k.2 ⊆ den f) ∨
    ∃ q ∈ c.waiting.queue, k.1.1.id = q.l1.id ∧ k.1.2.id = q.l2.id ∧ k.2 ⊆ den q.zone}

/-- How much there is left to do. -/
noncomputable def RefCtx.left (A : Set ((LocTree F × LocTree F) × Set Val)) (c : RefCtx F) : Nat :=
  c.waiting.queue.length + (A \ DoneKeys c).ncard

/-- The waiting list is in order and has places of the two systems only. -/
structure RefCtx.Fine (S1 S2 : Set (LocTree F)) (c : RefCtx F) : Prop where
  inv : c.waiting.Inv
  locs : ∀ q ∈ c.waiting.queue, q.l1 ∈ S1 ∧ q.l2 ∈ S2

/-- A part of a round succeeds, and afterwards no more is left to do than before. -/
def RoundOk {α : Type} (S1 S2 : Set (LocTree F)) (A : Set ((LocTree F × LocTree F) × Set Val)) (c : RefCtx F)
    (x : Res (α × RefCtx F)) : Prop :=
  ∃ r c', x = .ok (r, c') ∧ c'.left A ≤ c.left A ∧ c'.Fine S1 S2

theorem buildPair_ends (h1 : ts1.Tame S1 β1) (h2 : ts2.Tame S2 β2) (hfin : (PairKeys F S1 S2 β1 β2).Finite)
    {t1 t2 : Transition F} {cur : StatePair F} {b : Bool}
    (ht1 : t1.target ∈ if b then S1 else S2) (ht2 : t2.target ∈ if b then S2 else S1) {c : RefCtx F} (hc : c.Fine S1 S2) :
    RoundOk S1 S2 (PairKeys F S1 S2 β1 β2) c (Refine.buildPair ts1 ts2 t1 t2 cur b c) := by
  unfold Refine.buildPair
  dsimp only
  have hl : (if b = true then t1.target else t2.target) ∈ S1 := by cases b <;> simpa using (by assumption)
  have hr : (if b = true then t2.target else t1.target) ∈ S2 := by cases b <;> simpa using (by assumption)
  generalize (if b = true then t1.target else t2.target) = left at hl ⊢
  generalize (if b = true then t2.target else t1.target) = right at hr ⊢
  split
  · exact ⟨_, _, rfl, le_rfl, hc⟩
  split
  · exact ⟨_, _, rfl, le_rfl, hc⟩
  split
  · exact ⟨_, _, rfl, le_rfl, hc⟩
  generalize right.applyInvariants (left.applyInvariants _) = z
  have e : StatePair.extrapolate ts1 ts2 ⟨left, right, z⟩ =
      .ok ⟨left, right, ZoneLib.extrapolate z ((β1 left).add (β2 right))⟩ := by
    unfold StatePair.extrapolate
    dsimp only
    rw [h1.bounds _ hl, ok_bind, h2.bounds _ hr, ok_bind]
  rw [e, ok_bind]
  split
  · rename_i hn
    refine ⟨_, _, rfl, ?_, Waiting.inv_put hc.inv _, ?_⟩
    · unfold RefCtx.left
      simp only [Waiting.put_queue, List.length_cons]
      generalize hy : ZoneLib.extrapolate z ((β1 left).add (β2 right)) = y at hn ⊢
      simp only [Bool.and_eq_true, Bool.not_eq_true'] at hn
      have := remain_lt hfin (C := DoneKeys c) (D := DoneKeys ⟨c.passed, c.waiting.put ⟨left, right, y⟩⟩)
        (k := ((left, right), den y)) ?_ ⟨⟨hl, hr⟩, z, by rw [← hy]⟩ ?_ ?_
      · omega
      · rintro k _ (hk | ⟨q, hq, hk⟩)
        · exact .inl hk
        · exact .inr ⟨q, by simp only [Waiting.put_queue]; exact .tail _ hq, hk⟩
      · rintro (⟨f, hf, hsub⟩ | ⟨q, hq, e1, e2, hsub⟩)
        · have : c.passed.has ⟨left, right, y⟩ = true := by
            unfold PassedFed.has StatePair.key
            rw [hf]; exact (subsetEq_iff _ _).2 hsub
          rw [this] at hn; cases hn.1
        · have : c.waiting.has ⟨left, right, y⟩ = true := (Waiting.has_iff hc.inv _).2 ⟨q, hq, e1, e2, hsub⟩
          rw [this] at hn; cases hn.2
      · exact .inr ⟨⟨left, right, y⟩, by simp [Waiting.put_queue], rfl, rfl, subset_rfl⟩
    · intro q hq
      simp only [Waiting.put_queue] at hq
      rcases List.mem_cons.1 hq with rfl | hq
      · exact ⟨hl, hr⟩
      · exact hc.locs q hq
  · exact ⟨_, _, rfl, le_rfl, hc⟩

theorem tryPairsInner_ends (h1 : ts1.Tame S1 β1) (h2 : ts2.Tame S2 β2) (hfin : (PairKeys F S1 S2 β1 β2).Finite)
    {t1 : Transition F} {cur : StatePair F} {b : Bool} (ht1 : t1.target ∈ if b then S1 else S2) :
    ∀ (tr2 : List (Transition F)), (∀ t2 ∈ tr2, t2.target ∈ if b then S2 else S1) → ∀ (c : RefCtx F), c.Fine S1 S2 →
    RoundOk S1 S2 (PairKeys F S1 S2 β1 β2) c (Refine.tryPairsInner ts1 ts2 t1 cur b tr2 c)
  | [], _, c, hc => ⟨_, _, rfl, le_rfl, hc⟩
  | t2 :: tl, ht2, c, hc => by
    rw [Refine.tryPairsInner]
    obtain ⟨r, c1, e1, e2, e3⟩ := buildPair_ends h1 h2 hfin (cur := cur) ht1 (ht2 t2 (.head _)) hc
    rw [e1, ok_bind]
    cases r with
    | false => exact ⟨_, _, rfl, e2, e3⟩
    | true =>
      obtain ⟨r, c2, e4, e5, e6⟩ := tryPairsInner_ends h1 h2 hfin (cur := cur) ht1 tl (fun t h => ht2 t (.tail _ h)) c1 e3
      exact ⟨r, c2, e4, e5.trans e2, e6⟩

theorem tryPairs_ends (h1 : ts1.Tame S1 β1) (h2 : ts2.Tame S2 β2) (hfin : (PairKeys F S1 S2 β1 β2).Finite)
    {cur : StatePair F} {b : Bool} {tr2 : List (Transition F)} (ht2 : ∀ t2 ∈ tr2, t2.target ∈ if b then S2 else S1) :
    ∀ (tr1 : List (Transition F)), (∀ t1 ∈ tr1, t1.target ∈ if b then S1 else S2) → ∀ (c : RefCtx F), c.Fine S1 S2 →
    RoundOk S1 S2 (PairKeys F S1 S2 β1 β2) c (Refine.tryPairs ts1 ts2 tr2 cur b tr1 c)
  | [], _, c, hc => ⟨_, _, rfl, le_rfl, hc⟩
  | t1 :: tl, ht1, c, hc => by
    rw [Refine.tryPairs]
    obtain ⟨r, c1, e1, e2, e3⟩ := tryPairsInner_ends h1 h2 hfin (cur := cur) (ht1 t1 (.head _)) tr2 ht2 c hc
    rw [e1, ok_bind]
    cases r with
    | false => exact ⟨_, _, rfl, e2, e3⟩
    | true =>
      obtain ⟨r, c2, e4, e5, e6⟩ := tryPairs_ends h1 h2 hfin (cur := cur) ht2 tl (fun t h => ht1 t (.tail _ h)) c1 e3
      exact ⟨r, c2, e4, e5.trans e2, e6⟩

theorem validPairs_ends (h1 : ts1.Tame S1 β1) (h2 : ts2.Tame S2 β2) (hfin : (PairKeys F S1 S2 β1 β2).Finite)
    {cur : StatePair F} {b : Bool} {tr1 tr2 : List (Transition F)} (ht1 : ∀ t1 ∈ tr1, t1.target ∈ if b then S1 else S2)
    (ht2 : ∀ t2 ∈ tr2, t2.target ∈ if b then S2 else S1) {c : RefCtx F} (hc : c.Fine S1 S2) :
    RoundOk S1 S2 (PairKeys F S1 S2 β1 β2) c (Refine.validPairs ts1 ts2 tr1 tr2 cur b c) := by
  unfold Refine.validPairs
  dsimp only
  split
  · exact ⟨_, _, rfl, le_rfl, hc⟩
  split
  · exact ⟨_, _, rfl, le_rfl, hc⟩
  split
  · exact ⟨_, _, rfl, le_rfl, hc⟩
  obtain ⟨r, c1, e1, e2, e3⟩ := tryPairs_ends h1 h2 hfin (cur := cur) ht2 tr1 ht1 c hc
  rw [e1, ok_bind]
  cases r <;> exact ⟨_, _, rfl, e2, e3⟩

theorem outputLoop_ends (h1 : ts1.Tame S1 β1) (h2 : ts2.Tame S2 β2) (hfin : (PairKeys F S1 S2 β1 β2).Finite)
    {cur : StatePair F} (hl1 : cur.l1 ∈ S1) (hl2 : cur.l2 ∈ S2) :
    ∀ (as : List String), (∀ a ∈ as, a ∈ ts1.outputs) → ∀ (c : RefCtx F), c.Fine S1 S2 →
    RoundOk S1 S2 (PairKeys F S1 S2 β1 β2) c (Refine.outputLoop ts1 ts2 cur as c)
  | [], _, c, hc => ⟨_, _, rfl, le_rfl, hc⟩
  | a :: as, ha, c, hc => by
    rw [Refine.outputLoop]
    have hao := ha a (.head _)
    obtain ⟨o1, e1, e1'⟩ := h1.next _ hl1 a (.inr hao)
    have n1 : ts1.nextOutputs cur.l1 a = .ok o1 := by
      unfold TS.nextOutputs; rw [if_pos (by simpa using hao)]; exact e1
    have n2 : ∃ o2, Refine.outputs2 ts1 ts2 cur a = .ok o2 ∧ ∀ t ∈ o2, t.target ∈ S2 := by
      unfold Refine.outputs2
      split
      · exact ⟨_, rfl, by simpa [Transition.withoutId] using hl2⟩
      · rename_i hx
        have hx : a ∈ ts2.outputs := by
          by_contra hno
          exact hx (by simp [Refine.extraOutputs, setDiff, hao, hno])
        obtain ⟨o2, e2, e2'⟩ := h2.next _ hl2 a (.inr hx)
        refine ⟨o2, ?_, e2'⟩
        unfold TS.nextOutputs; rw [if_pos (by simpa using hx)]; exact e2
    obtain ⟨o2, n2, n2'⟩ := n2
    obtain ⟨r, c1, e3, e4, e5⟩ := validPairs_ends h1 h2 hfin (cur := cur) (b := true) (tr1 := o1) (tr2 := o2)
      (by simpa using e1') (by simpa using n2') hc
    rw [n1, ok_bind, n2, ok_bind, e3, ok_bind]
    dsimp only
    split
    · exact ⟨_, _, rfl, e4, e5⟩
    · obtain ⟨r, c2, e6, e7, e8⟩ := outputLoop_ends h1 h2 hfin hl1 hl2 as (fun a h => ha a (.tail _ h)) c1 e5
      exact ⟨r, c2, e6, e7.trans e4, e8⟩

theorem inputLoop_ends (h1 : ts1.Tame S1 β1) (h2 : ts2.Tame S2 β2) (hfin : (PairKeys F S1 S2 β1 β2).Finite)
    {cur : StatePair F} (hl1 : cur.l1 ∈ S1) (hl2 : cur.l2 ∈ S2) :
    ∀ (as : List String), (∀ a ∈ as, a ∈ ts2.inputs) → ∀ (c : RefCtx F), c.Fine S1 S2 →
    RoundOk S1 S2 (PairKeys F S1 S2 β1 β2) c (Refine.inputLoop ts1 ts2 cur as c)
  | [], _, c, hc => ⟨_, _, rfl, le_rfl, hc⟩
  | a :: as, ha, c, hc => by
    rw [Refine.inputLoop]
    have hai := ha a (.head _)
    obtain ⟨i2, e1, e1'⟩ := h2.next _ hl2 a (.inl hai)
    have n2 : ts2.nextInputs cur.l2 a = .ok i2 := by
      unfold TS.nextInputs; rw [if_pos (by simpa using hai)]; exact e1
    have n1 : ∃ i1, Refine.inputs1 ts1 ts2 cur a = .ok i1 ∧ ∀ t ∈ i1, t.target ∈ S1 := by
      unfold Refine.inputs1
      split
      · exact ⟨_, rfl, by simpa [Transition.withoutId] using hl1⟩
      · rename_i hx
        have hx : a ∈ ts1.inputs := by
          by_contra hno
          exact hx (by simp [Refine.extraInputs, setDiff, hai, hno])
        obtain ⟨o2, e2, e2'⟩ := h1.next _ hl1 a (.inl hx)
        refine ⟨o2, ?_, e2'⟩
        unfold TS.nextInputs; rw [if_pos (by simpa using hx)]; exact e2
    obtain ⟨i1, n1, n1'⟩ := n1
    obtain ⟨r, c1, e3, e4, e5⟩ := validPairs_ends h1 h2 hfin (cur := cur) (b := false) (tr1 := i2) (tr2 := i1)
      (by simpa using e1') (by simpa using n1') hc
    rw [n1, ok_bind, n2, ok_bind, e3, ok_bind]
    dsimp only
    split
    · exact ⟨_, _, rfl, e4, e5⟩
    · obtain ⟨r, c2, e6, e7, e8⟩ := inputLoop_ends h1 h2 hfin hl1 hl2 as (fun a h => ha a (.tail _ h)) c1 e5
      exact ⟨r, c2, e6, e7.trans e4, e8⟩

theorem mainLoop_ends (h1 : ts1.Tame S1 β1) (h2 : ts2.Tame S2 β2) (hfin : (PairKeys F S1 S2 β1 β2).Finite)
    {ordO ordI : List String} (hO : ∀ a ∈ ordO, a ∈ ts1.outputs) (hI : ∀ a ∈ ordI, a ∈ ts2.inputs) :
    ∀ (n : Nat) (c : RefCtx F), c.Fine S1 S2 → c.left (PairKeys F S1 S2 β1 β2) ≤ n →
    ∃ r, Refine.mainLoop ts1 ts2 ordO ordI (n + 1) c = .ok r := by
  intro n
  induction n with
  | zero =>
    intro c hc hn
    rw [Refine.mainLoop]
    have : c.waiting.queue = [] := List.eq_nil_of_length_eq_zero (by unfold RefCtx.left at hn; omega)
    exact ⟨(none, c), by simp [Waiting.isEmpty, this]⟩
  | succ n ih =>
    intro c hc hn
    rw [Refine.mainLoop]
    rcases Waiting.pop_spec hc.inv with ⟨hq, _⟩ | ⟨p, q, m, hq, hpop, hinv⟩
    · exact ⟨(none, c), by simp [Waiting.isEmpty, hq]⟩
    · have hne : c.waiting.isEmpty = false := by simp [Waiting.isEmpty, hq]
      have hp := hc.locs p (by rw [hq]; exact .head _)
      rw [hne, hpop]
      simp only [Bool.false_eq_true, if_false, ok_bind]
      have hfine : (⟨c.passed.put p, ⟨q, m⟩⟩ : RefCtx F).Fine S1 S2 :=
        ⟨hinv, fun x hx => hc.locs x (by rw [hq]; exact .tail _ hx)⟩
      have hleft : (⟨c.passed.put p, ⟨q, m⟩⟩ : RefCtx F).left (PairKeys F S1 S2 β1 β2) ≤ n := by
        unfold RefCtx.left at hn ⊢
        rw [hq, List.length_cons] at hn
        have := remain_le hfin (C := DoneKeys c) (D := DoneKeys ⟨c.passed.put p, ⟨q, m⟩⟩) ?_
        · dsimp only; omega
        · have hput : ∀ k f, c.passed.lookup k = some f → ∃ g, (c.passed.put p).lookup k = some g ∧ den f ⊆ den g := by
            intro k f hf
            unfold PassedFed.put
            by_cases hk : k = p.key
            · subst hk
              rw [hf]
              refine ⟨append p.zone f, by simp [lookup_hmInsert], ?_⟩
              rw [den_append]; exact Set.subset_union_right
            · split <;> exact ⟨f, by simp [lookup_hmInsert, hk, hf], subset_rfl⟩
          have hself : ∃ g, (c.passed.put p).lookup p.key = some g ∧ den p.zone ⊆ den g := by
            unfold PassedFed.put
            split
            · refine ⟨_, by rw [lookup_hmInsert, if_pos rfl], ?_⟩
              rw [den_append]; exact Set.subset_union_left
            · exact ⟨_, by rw [lookup_hmInsert, if_pos rfl], subset_rfl⟩
          rintro k _ (⟨f, hf, hk⟩ | ⟨x, hx, k1, k2, hk⟩)
          · obtain ⟨g, hg, hs⟩ := hput _ f hf
            exact .inl ⟨g, hg, hk.trans hs⟩
          · rw [hq] at hx
            rcases List.mem_cons.1 hx with rfl | hx
            · obtain ⟨g, hg, hs⟩ := hself
              refine .inl ⟨g, ?_, hk.trans hs⟩
              rw [k1, k2]; exact hg
            · exact .inr ⟨x, hx, k1, k2, hk⟩
      obtain ⟨r, c1, e1, e2, e3⟩ := outputLoop_ends h1 h2 hfin hp.1 hp.2 ordO hO _ hfine
      have eu : (unwrap (some p) : Res (StatePair F)) = .ok p := rfl
      rw [eu, ok_bind, e1, ok_bind]
      cases r with
      | some f => exact ⟨_, rfl⟩
      | none =>
        obtain ⟨r, c2, e4, e5, e6⟩ := inputLoop_ends h1 h2 hfin hp.1 hp.2 ordI hI _ e3
        dsimp only
        rw [e4, ok_bind]
        cases r with
        | some f => exact ⟨_, rfl⟩
        | none => exact ih c2 e6 (by omega)

theorem explore_ends {s t : Sys F} (hs : s.Good) (ht : t.Good) (hfin : FiniteExtrapolation F)
    {ordO ordI : List String} (hO : ∀ a ∈ ordO, a ∈ s.ts.outputs) (hI : ∀ a ∈ ordI, a ∈ t.ts.inputs) :
    ∃ N r, ∀ fuel, N ≤ fuel → Refine.explore s.ts t.ts ordO ordI fuel = .ok r := by
  suffices h : ∃ N r, Refine.explore s.ts t.ts ordO ordI N = .ok r by
    obtain ⟨N, r, h⟩ := h
    exact ⟨N, r, fun n hn => (settled (Refine.explore_mono s.ts t.ts ordO ordI) (N := N) (by rw [h]; simp) n hn).trans h⟩
  obtain ⟨β1, h1⟩ := hs.tame
  obtain ⟨β2, h2⟩ := ht.tame
  obtain ⟨o1, i1, l1⟩ := hs.initial
  obtain ⟨o2, i2, l2⟩ := ht.initial
  have i1 : s.ts.initialLoc = .ok o1 := i1
  have i2 : t.ts.initialLoc = .ok o2 := i2
  cases o1 with
  | none =>
    cases o2 with
    | none => exact ⟨0, _, by unfold Refine.explore; rw [i1, ok_bind, i2]; rfl⟩
    | some b => exact ⟨0, _, by unfold Refine.explore; rw [i1, ok_bind, i2]; rfl⟩
  | some a =>
    cases o2 with
    | none => exact ⟨0, _, by unfold Refine.explore; rw [i1, ok_bind, i2]; rfl⟩
    | some b =>
      have ha := l1 a rfl
      have hb := l2 b rfl
      by_cases hz : isEmpty (b.applyInvariants (a.applyInvariants (init : F))) = true
      · refine ⟨0, some .emptyInitial, ?_⟩
        unfold Refine.explore
        rw [i1, ok_bind]
        dsimp only
        rw [i2, ok_bind]
        dsimp only
        rw [if_pos hz]
      · let p : StatePair F := ⟨a, b, ZoneLib.extrapolate (b.applyInvariants (a.applyInvariants (init : F)))
          ((β1 a).add (β2 b))⟩
        have hfinK : (PairKeys F {l | s.IsLoc l} {l | t.IsLoc l} β1 β2).Finite :=
          Keys.finite hfin (h1.finite.prod h2.finite) _
        obtain ⟨r, hr⟩ := mainLoop_ends h1 h2 hfinK hO hI _ ⟨[], Waiting.new.put p⟩
          ⟨Waiting.inv_put Waiting.inv_new p, by
            intro q hq
            rw [Waiting.put_queue] at hq
            simp only [Waiting.new, List.mem_singleton] at hq
            subst hq; exact ⟨ha, hb⟩⟩ le_rfl
        refine ⟨RefCtx.left (PairKeys F {l | s.IsLoc l} {l | t.IsLoc l} β1 β2) ⟨[], Waiting.new.put p⟩ + 1, r.1, ?_⟩
        unfold Refine.explore
        rw [i1, ok_bind]
        dsimp only
        rw [i2, ok_bind]
        dsimp only
        rw [if_neg hz]
        have e : StatePair.extrapolate s.ts t.ts ⟨a, b, b.applyInvariants (a.applyInvariants init)⟩ = .ok p := by
          unfold StatePair.extrapolate
          dsimp only
          rw [h1.bounds _ ha, ok_bind, h2.bounds _ hb, ok_bind]
        rw [e, ok_bind, hr]
        rfl

end Ref

end Reveaal
