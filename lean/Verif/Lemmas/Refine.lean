import Verif.Props.C38
import Verif.Props.C06
import Verif.Lemmas.Run
import Verif.Spec.Refinement

/-! # What a successful refinement check has seen -/

namespace Reveaal
open ZoneLib
variable {F : Type} [ZoneLib F]

namespace Refine

/-- All valuations of the pair are in pairs of the list with the same locations. -/
def Cov (X : List (StatePair F)) (p : StatePair F) : Prop :=
  ∀ v ∈ den p.zone, ∃ q ∈ X, p.l1.id = q.l1.id ∧ p.l2.id = q.l2.id ∧ v ∈ den q.zone

theorem Cov.mono {X Y : List (StatePair F)} (h : ∀ q ∈ X, q ∈ Y) {p : StatePair F} (hc : Cov X p) :
    Cov Y p := fun v hv => let ⟨q, hq, h'⟩ := hc v hv; ⟨q, h q hq, h'⟩

/-- The zone of a new pair after both transitions and delay -/
def postZone (t1 t2 : Transition F) (z : F) : F :=
  up (t2.applyUpdates (t1.applyUpdates (t2.applyGuards (t1.applyGuards z))))

/-- The pair of transitions was dealt with: either nothing can come of it, or the delays of the left side
were compared and the new pair is covered. -/
def Built (ts1 ts2 : TS F) (X : List (StatePair F)) (t1 t2 : Transition F) (cur : StatePair F)
    (isState1 : Bool) : Prop :=
  let left := if isState1 then t1.target else t2.target
  let right := if isState1 then t2.target else t1.target
  let sInv := left.applyInvariants (postZone t1 t2 cur.zone)
  let zone := right.applyInvariants sInv
  isEmpty (t2.applyGuards (t1.applyGuards cur.zone)) = true ∨ isEmpty zone = true ∨
    isEmpty sInv = true ∨ (den sInv ⊆ den (down zone) ∧
      ∃ new, StatePair.extrapolate ts1 ts2 ⟨left, right, zone⟩ = .ok new ∧ Cov X new)

theorem Built.mono {ts1 ts2 : TS F} {X Y : List (StatePair F)} (h : ∀ q ∈ X, q ∈ Y)
    {t1 t2 : Transition F} {cur : StatePair F} {b : Bool} (hb : Built ts1 ts2 X t1 t2 cur b) :
    Built ts1 ts2 Y t1 t2 cur b := by
  rcases hb with hb | hb | hb | ⟨h1, new, h2, h3⟩
  · exact .inl hb
  · exact .inr (.inl hb)
  · exact .inr (.inr (.inl hb))
  · exact .inr (.inr (.inr ⟨h1, new, h2, h3.mono h⟩))

/-- The context is one that can occur: the passed list was built from `P`, and the waiting list is in
order. -/
structure Ctx (P : List (StatePair F)) (ctx : RefCtx F) : Prop where
  passed : ctx.passed = P.foldl PassedFed.put []
  waiting : ctx.waiting.Inv

/-- From one context to a later one the passed list stays and the waiting list grows by good pairs. -/
structure Grows (P : List (StatePair F)) (ok : StatePair F → Prop) (c c' : RefCtx F) : Prop where
  ctx : Ctx P c'
  grow : ∀ q ∈ c.waiting.queue, q ∈ c'.waiting.queue
  new : ∀ q ∈ c'.waiting.queue, q ∈ c.waiting.queue ∨ ok q

theorem Grows.refl {P : List (StatePair F)} {ok : StatePair F → Prop} {c : RefCtx F} (h : Ctx P c) :
    Grows P ok c c := ⟨h, fun _ h => h, fun _ h => .inl h⟩

theorem Grows.trans {P : List (StatePair F)} {ok : StatePair F → Prop} {c c' c'' : RefCtx F}
    (h : Grows P ok c c') (h' : Grows P ok c' c'') : Grows P ok c c'' :=
  ⟨h'.ctx, fun q hq => h'.grow q (h.grow q hq), fun q hq => (h'.new q hq).elim (h.new q) .inr⟩

theorem Grows.weaken {P : List (StatePair F)} {ok ok' : StatePair F → Prop} {c c' : RefCtx F}
    (h : Grows P ok c c') (hw : ∀ q, ok q → ok' q) : Grows P ok' c c' :=
  ⟨h.ctx, h.grow, fun q hq => (h.new q hq).imp id (hw q)⟩

theorem append_mono {P : List (StatePair F)} {c c' : RefCtx F} {ok : StatePair F → Prop}
    (h : Grows P ok c c') : ∀ q ∈ P ++ c.waiting.queue, q ∈ P ++ c'.waiting.queue := by
  intro q hq
  rcases List.mem_append.1 hq with hq | hq
  · exact List.mem_append_left _ hq
  · exact List.mem_append_right _ (h.grow q hq)

/-- The new pair has the targets of the two transitions as locations. -/
def HasTargets (t1 t2 : Transition F) (isState1 : Bool) (q : StatePair F) : Prop :=
  q.l1 = (if isState1 then t1.target else t2.target) ∧
  q.l2 = (if isState1 then t2.target else t1.target)

theorem buildPair_spec {ts1 ts2 : TS F} {t1 t2 : Transition F} {cur : StatePair F} {b : Bool}
    {P : List (StatePair F)} {c c' : RefCtx F} (hc : Ctx P c)
    (h : buildPair ts1 ts2 t1 t2 cur b c = .ok (true, c')) :
    Grows P (HasTargets t1 t2 b) c c' ∧ Built ts1 ts2 (P ++ c'.waiting.queue) t1 t2 cur b := by
  unfold buildPair at h
  unfold Built HasTargets postZone
  dsimp only at h ⊢
  generalize (if b = true then t1.target else t2.target) = left at h ⊢
  generalize (if b = true then t2.target else t1.target) = right at h ⊢
  split at h
  · rename_i he
    cases h
    exact ⟨.refl hc, .inl he⟩
  · split at h
    · rename_i he
      cases h
      rw [Bool.or_eq_true] at he
      refine ⟨.refl hc, ?_⟩
      rcases he with he | he
      · exact .inr (.inl he)
      · exact .inr (.inr (.inl he))
    · split at h
      · cases h
      · rename_i hs
        have hs := (subsetEq_iff _ _).1 (by simpa using hs)
        obtain ⟨new, hn, h⟩ := bind_ok h
        have hloc : new.l1 = left ∧ new.l2 = right := by
          unfold StatePair.extrapolate at hn
          obtain ⟨b1, _, hn⟩ := bind_ok hn
          obtain ⟨b2, _, hn⟩ := bind_ok hn
          cases hn; exact ⟨rfl, rfl⟩
        split at h
        · rename_i hp
          cases h
          refine ⟨⟨⟨hc.passed, Waiting.inv_put hc.waiting _⟩, ?_, ?_⟩, .inr (.inr (.inr ⟨hs, new, hn, ?_⟩))⟩
          · intro q hq; simp only [Waiting.put_queue]; exact List.mem_cons_of_mem _ hq
          · intro q hq
            simp only [Waiting.put_queue] at hq
            rcases List.mem_cons.1 hq with rfl | hq
            · exact .inr hloc
            · exact .inl hq
          · intro v hv
            exact ⟨new, by simp [Waiting.put_queue], rfl, rfl, hv⟩
        · rename_i hp
          cases h
          refine ⟨.refl hc, .inr (.inr (.inr ⟨hs, new, hn, ?_⟩))⟩
          have : PassedFed.has c.passed new = true ∨ c.waiting.has new = true := by
            cases h1 : PassedFed.has c.passed new <;> cases h2 : c.waiting.has new <;> simp_all
          rcases this with h1 | h1
          · rw [hc.passed, C38_passed_has] at h1
            intro v hv
            obtain ⟨q, hq, h2⟩ := h1.2 v hv
            exact ⟨q, List.mem_append_left _ hq, h2⟩
          · obtain ⟨q, hq, h2, h3, h4⟩ := (Waiting.has_iff hc.waiting new).1 h1
            exact fun v hv => ⟨q, List.mem_append_right _ hq, h2, h3, h4 hv⟩

theorem tryPairsInner_spec {ts1 ts2 : TS F} {t1 : Transition F} {cur : StatePair F} {b : Bool}
    {P : List (StatePair F)} : ∀ {tr2 : List (Transition F)} {c c' : RefCtx F}, Ctx P c →
    tryPairsInner ts1 ts2 t1 cur b tr2 c = .ok (true, c') →
    Grows P (fun q => ∃ t2 ∈ tr2, HasTargets t1 t2 b q) c c' ∧
      ∀ t2 ∈ tr2, Built ts1 ts2 (P ++ c'.waiting.queue) t1 t2 cur b := by
  intro tr2
  induction tr2 with
  | nil => intro c c' hc h; cases h; exact ⟨.refl hc, by simp⟩
  | cons t tl ih =>
    intro c c' hc h
    rw [tryPairsInner] at h
    obtain ⟨⟨r, c1⟩, h1, h⟩ := bind_ok h
    cases r with
    | false => cases h
    | true =>
      obtain ⟨g1, b1⟩ := buildPair_spec hc h1
      obtain ⟨g2, b2⟩ := ih g1.ctx h
      refine ⟨(g1.weaken fun q hq => ⟨t, by simp, hq⟩).trans (g2.weaken fun q hq => ?_), fun t2 ht2 => ?_⟩
      · obtain ⟨t2, h1, h2⟩ := hq; exact ⟨t2, by simp [h1], h2⟩
      · rcases List.mem_cons.1 ht2 with rfl | ht2
        · exact b1.mono (append_mono g2)
        · exact b2 t2 ht2

theorem tryPairs_spec {ts1 ts2 : TS F} {tr2 : List (Transition F)} {cur : StatePair F} {b : Bool}
    {P : List (StatePair F)} : ∀ {tr1 : List (Transition F)} {c c' : RefCtx F}, Ctx P c →
    tryPairs ts1 ts2 tr2 cur b tr1 c = .ok (true, c') →
    Grows P (fun q => ∃ t1 ∈ tr1, ∃ t2 ∈ tr2, HasTargets t1 t2 b q) c c' ∧
      ∀ t1 ∈ tr1, ∀ t2 ∈ tr2, Built ts1 ts2 (P ++ c'.waiting.queue) t1 t2 cur b := by
  intro tr1
  induction tr1 with
  | nil => intro c c' hc h; cases h; exact ⟨.refl hc, by simp⟩
  | cons t tl ih =>
    intro c c' hc h
    rw [tryPairs] at h
    obtain ⟨⟨r, c1⟩, h1, h⟩ := bind_ok h
    cases r with
    | false => cases h
    | true =>
      obtain ⟨g1, b1⟩ := tryPairsInner_spec hc h1
      obtain ⟨g2, b2⟩ := ih g1.ctx h
      refine ⟨(g1.weaken fun q hq => ⟨t, by simp, hq⟩).trans (g2.weaken fun q hq => ?_), fun t1 ht1 t2 ht2 => ?_⟩
      · obtain ⟨t1, h1, h2⟩ := hq; exact ⟨t1, by simp [h1], h2⟩
      · rcases List.mem_cons.1 ht1 with rfl | ht1
        · exact (b1 t2 ht2).mono (append_mono g2)
        · exact b2 t1 ht1 t2 ht2

/-- The transitions of one action were compared. -/
def Compared (ts1 ts2 : TS F) (X : List (StatePair F)) (tr1 tr2 : List (Transition F)) (cur : StatePair F)
    (b : Bool) : Prop :=
  den (guardFed cur.zone tr1) = ∅ ∨ (den (guardFed cur.zone tr1) ⊆ den (guardFed cur.zone tr2) ∧
    ∀ t1 ∈ tr1, ∀ t2 ∈ tr2, Built ts1 ts2 X t1 t2 cur b)

theorem Compared.mono {ts1 ts2 : TS F} {X Y : List (StatePair F)} (h : ∀ q ∈ X, q ∈ Y)
    {tr1 tr2 : List (Transition F)} {cur : StatePair F} {b : Bool}
    (hb : Compared ts1 ts2 X tr1 tr2 cur b) : Compared ts1 ts2 Y tr1 tr2 cur b :=
  hb.imp id fun h' => ⟨h'.1, fun t1 h1 t2 h2 => (h'.2 t1 h1 t2 h2).mono h⟩

theorem validPairs_spec {ts1 ts2 : TS F} {tr1 tr2 : List (Transition F)} {cur : StatePair F} {b : Bool}
    {P : List (StatePair F)} {c c' : RefCtx F} {r : PairResult} (hc : Ctx P c) (hr : r = .valid)
    (h : validPairs ts1 ts2 tr1 tr2 cur b c = .ok (r, c')) :
    Grows P (fun q => ∃ t1 ∈ tr1, ∃ t2 ∈ tr2, HasTargets t1 t2 b q) c c' ∧
      Compared ts1 ts2 (P ++ c'.waiting.queue) tr1 tr2 cur b := by
  unfold validPairs at h
  dsimp only at h
  split at h
  · rename_i he
    cases h
    exact ⟨.refl hc, .inl ((ZoneLib.isEmpty_iff _).1 he)⟩
  split at h
  · cases h; cases hr
  split at h
  · cases h; cases hr
  · rename_i hsub
    have hsub : den (subtraction (guardFed cur.zone tr1) (guardFed cur.zone tr2)) = ∅ :=
      (ZoneLib.isEmpty_iff _).1 (by simpa using hsub)
    obtain ⟨⟨ok, c1⟩, h1, h⟩ := bind_ok h
    cases ok with
    | false => cases h; cases hr
    | true =>
      cases h
      obtain ⟨g, bt⟩ := tryPairs_spec hc h1
      refine ⟨g, .inr ⟨fun v hv => ?_, bt⟩⟩
      by_contra hn
      have : v ∈ den (subtraction (guardFed cur.zone tr1) (guardFed cur.zone tr2)) := by
        rw [den_subtraction]; exact ⟨hv, hn⟩
      rw [hsub] at this; cases this

omit [ZoneLib F] in
theorem check_none {r : PairResult} {a : String} {p : StatePair F} (h : r.check a p = none) :
    r = .valid := by cases r <;> simp_all [PairResult.check]

/-- All outputs and inputs of the pair were compared. -/
structure Processed (ts1 ts2 : TS F) (ordO ordI : List String) (X : List (StatePair F)) (p : StatePair F) :
    Prop where
  outs : ∀ a ∈ ordO, ∃ o1 o2, ts1.nextOutputs p.l1 a = .ok o1 ∧ outputs2 ts1 ts2 p a = .ok o2 ∧
    Compared ts1 ts2 X o1 o2 p true
  ins : ∀ a ∈ ordI, ∃ i1 i2, inputs1 ts1 ts2 p a = .ok i1 ∧ ts2.nextInputs p.l2 a = .ok i2 ∧
    Compared ts1 ts2 X i2 i1 p false

theorem Processed.mono {ts1 ts2 : TS F} {ordO ordI : List String} {X Y : List (StatePair F)}
    (h : ∀ q ∈ X, q ∈ Y) {p : StatePair F} (hp : Processed ts1 ts2 ordO ordI X p) :
    Processed ts1 ts2 ordO ordI Y p :=
  ⟨fun a ha => let ⟨o1, o2, h1, h2, h3⟩ := hp.outs a ha; ⟨o1, o2, h1, h2, h3.mono h⟩,
   fun a ha => let ⟨o1, o2, h1, h2, h3⟩ := hp.ins a ha; ⟨o1, o2, h1, h2, h3.mono h⟩⟩

/-- New pairs only have locations of the two systems. -/
def Step (ts1 ts2 : TS F) (ordO ordI : List String) (cur q : StatePair F) : Prop :=
  (∃ a ∈ ordO, ∃ o1 o2, ts1.nextOutputs cur.l1 a = .ok o1 ∧ outputs2 ts1 ts2 cur a = .ok o2 ∧
    ∃ t1 ∈ o1, ∃ t2 ∈ o2, q.l1 = t1.target ∧ q.l2 = t2.target) ∨
  (∃ a ∈ ordI, ∃ i1 i2, inputs1 ts1 ts2 cur a = .ok i1 ∧ ts2.nextInputs cur.l2 a = .ok i2 ∧
    ∃ t1 ∈ i1, ∃ t2 ∈ i2, q.l1 = t1.target ∧ q.l2 = t2.target)

theorem outputLoop_spec {ts1 ts2 : TS F} {cur : StatePair F} {P : List (StatePair F)} :
    ∀ {as : List String} {c c' : RefCtx F}, Ctx P c → outputLoop ts1 ts2 cur as c = .ok (none, c') →
    Grows P (fun q => Step ts1 ts2 as [] cur q) c c' ∧ ∀ a ∈ as, ∃ o1 o2,
      ts1.nextOutputs cur.l1 a = .ok o1 ∧ outputs2 ts1 ts2 cur a = .ok o2 ∧
      Compared ts1 ts2 (P ++ c'.waiting.queue) o1 o2 cur true := by
  intro as
  induction as with
  | nil => intro c c' hc h; cases h; exact ⟨.refl hc, by simp⟩
  | cons a as ih =>
    intro c c' hc h
    rw [outputLoop] at h
    obtain ⟨o1, h1, h⟩ := bind_ok h
    obtain ⟨o2, h2, h⟩ := bind_ok h
    obtain ⟨⟨r, c1⟩, h3, h⟩ := bind_ok h
    dsimp only at h
    split at h
    · cases h
    · rename_i hr
      obtain ⟨g1, b1⟩ := validPairs_spec hc (check_none hr) h3
      obtain ⟨g2, b2⟩ := ih g1.ctx h
      refine ⟨(g1.weaken ?_).trans (g2.weaken ?_), fun a' ha' => ?_⟩
      · rintro q ⟨t1, ht1, t2, ht2, h4, h5⟩
        exact .inl ⟨a, by simp, o1, o2, h1, h2, t1, ht1, t2, ht2, h4, h5⟩
      · rintro q (⟨a', ha', hq⟩ | ⟨a', ha', _⟩)
        · exact .inl ⟨a', by simp [ha'], hq⟩
        · cases ha'
      · rcases List.mem_cons.1 ha' with rfl | ha'
        · exact ⟨o1, o2, h1, h2, b1.mono (append_mono g2)⟩
        · exact b2 a' ha'

theorem inputLoop_spec {ts1 ts2 : TS F} {cur : StatePair F} {P : List (StatePair F)} :
    ∀ {as : List String} {c c' : RefCtx F}, Ctx P c → inputLoop ts1 ts2 cur as c = .ok (none, c') →
    Grows P (fun q => Step ts1 ts2 [] as cur q) c c' ∧ ∀ a ∈ as, ∃ i1 i2,
      inputs1 ts1 ts2 cur a = .ok i1 ∧ ts2.nextInputs cur.l2 a = .ok i2 ∧
      Compared ts1 ts2 (P ++ c'.waiting.queue) i2 i1 cur false := by
  intro as
  induction as with
  | nil => intro c c' hc h; cases h; exact ⟨.refl hc, by simp⟩
  | cons a as ih =>
    intro c c' hc h
    rw [inputLoop] at h
    obtain ⟨o1, h1, h⟩ := bind_ok h
    obtain ⟨o2, h2, h⟩ := bind_ok h
    obtain ⟨⟨r, c1⟩, h3, h⟩ := bind_ok h
    dsimp only at h
    split at h
    · cases h
    · rename_i hr
      obtain ⟨g1, b1⟩ := validPairs_spec hc (check_none hr) h3
      obtain ⟨g2, b2⟩ := ih g1.ctx h
      refine ⟨(g1.weaken ?_).trans (g2.weaken ?_), fun a' ha' => ?_⟩
      · rintro q ⟨t1, ht1, t2, ht2, h4, h5⟩
        exact .inr ⟨a, by simp, o1, o2, h1, h2, t2, ht2, t1, ht1, h4, h5⟩
      · rintro q (⟨a', ha', _⟩ | ⟨a', ha', hq⟩)
        · cases ha'
        · exact .inr ⟨a', by simp [ha'], hq⟩
      · rcases List.mem_cons.1 ha' with rfl | ha'
        · exact ⟨o1, o2, h1, h2, b1.mono (append_mono g2)⟩
        · exact b2 a' ha'

theorem mainLoop_spec {ts1 ts2 : TS F} {ordO ordI : List String} {ok : StatePair F → Prop}
    (hok : ∀ p q, ok p → Step ts1 ts2 ordO ordI p q → ok q) : ∀ (fuel : Nat) {P : List (StatePair F)}
    {c c' : RefCtx F}, Ctx P c → (∀ p ∈ P, Processed ts1 ts2 ordO ordI (P ++ c.waiting.queue) p) →
    (∀ p ∈ P ++ c.waiting.queue, ok p) → mainLoop ts1 ts2 ordO ordI fuel c = .ok (none, c') →
    ∃ P', (∀ p ∈ P ++ c.waiting.queue, p ∈ P') ∧ (∀ p ∈ P', Processed ts1 ts2 ordO ordI P' p) ∧
      ∀ p ∈ P', ok p := by
  intro fuel
  induction fuel with
  | zero => intro P c c' _ _ _ h; cases h
  | succ n ih =>
    intro P c c' hc hP hall h
    rw [mainLoop] at h
    split at h
    · rename_i he
      have he : c.waiting.queue = [] := by simpa [Waiting.isEmpty] using he
      rw [he, List.append_nil] at hP hall ⊢
      exact ⟨P, fun p hp => hp, hP, hall⟩
    · obtain ⟨⟨o, w⟩, h1, h⟩ := bind_ok h
      obtain ⟨cur, h2, h⟩ := bind_ok h
      rcases Waiting.pop_spec hc.waiting with ⟨h3, h4⟩ | ⟨p, q, m, h3, h4, h5⟩
      · rw [h4] at h1; cases h1; cases h2
      · rw [h4] at h1; cases h1
        have h2 : cur = p := by cases h2; rfl
        subst cur
        have hc' : Ctx (P ++ [p]) ⟨PassedFed.put c.passed p, ⟨q, m⟩⟩ :=
          ⟨by rw [hc.passed, List.foldl_append]; rfl, h5⟩
        obtain ⟨⟨r1, c1⟩, h6, h⟩ := bind_ok h
        cases r1 with
        | some f => cases h
        | none =>
          obtain ⟨⟨r2, c2⟩, h7, h⟩ := bind_ok h
          cases r2 with
          | some f => cases h
          | none =>
            obtain ⟨g1, b1⟩ := outputLoop_spec hc' h6
            obtain ⟨g2, b2⟩ := inputLoop_spec g1.ctx h7
            have g := (g1.weaken (ok' := Step ts1 ts2 ordO ordI p) (by
                rintro q (hq | ⟨a', ha', _⟩)
                · exact .inl hq
                · cases ha')).trans
              (g2.weaken (ok' := Step ts1 ts2 ordO ordI p) (by
                rintro q (⟨a', ha', _⟩ | hq)
                · cases ha'
                · exact .inr hq))
            have hsub : ∀ x ∈ P ++ c.waiting.queue, x ∈ (P ++ [p]) ++ c2.waiting.queue := by
              intro x hx
              rw [h3] at hx
              rcases List.mem_append.1 hx with hx | hx
              · simp [hx]
              · rcases List.mem_cons.1 hx with rfl | hx
                · simp
                · exact List.mem_append_right _ (g.grow x hx)
            have hp : ok p := hall p (by rw [h3]; simp)
            obtain ⟨P', h8, h9, h10⟩ := ih g.ctx (fun x hx => by
              rcases List.mem_append.1 hx with hx | hx
              · exact (hP x hx).mono hsub
              · rw [List.mem_singleton] at hx; subst hx
                refine ⟨fun a ha => ?_, fun a ha => b2 a ha⟩
                obtain ⟨o1, o2, e1, e2, e3⟩ := b1 a ha
                exact ⟨o1, o2, e1, e2, e3.mono (append_mono g2)⟩)
              (fun x hx => by
                rcases List.mem_append.1 hx with hx | hx
                · rcases List.mem_append.1 hx with hx | hx
                  · exact hall x (by simp [hx])
                  · rw [List.mem_singleton] at hx; subst hx; exact hp
                · rcases g.new x hx with hx | hx
                  · exact hall x (by rw [h3]; have : x ∈ q := hx; simp [this])
                  · exact hok _ _ hp hx) h
            exact ⟨P', fun x hx => h8 x (hsub x hx), h9, h10⟩

theorem mem_guardFed {z : F} {tr : List (Transition F)} {v : Val} :
    v ∈ den (guardFed z tr) ↔ v ∈ den z ∧ ∃ t ∈ tr, v ∈ den t.allowed := by
  unfold guardFed
  rw [den_inter, Set.mem_inter_iff, mem_foldl_append, den_empty]
  simp [and_comm]

theorem mem_postZone {t1 t2 : Transition F} {z : F} (h1 : UpdatesOk t1.updates (dim F))
    (h2 : UpdatesOk t2.updates (dim F)) {w : Val} :
    w ∈ den (postZone t1 t2 z) ↔ ∃ v ∈ den z, v ∈ den t1.guard ∧ v ∈ den t2.guard ∧ ∃ d : ℝ, 0 ≤ d ∧
      w = delay (dim F) (runUpdates t2.updates (runUpdates t1.updates v)) d := by
  unfold postZone
  rw [den_up, den_applyUpdates h2, den_applyUpdates h1]
  simp only [Transition.applyGuards, den_inter]
  constructor
  · rintro ⟨_, ⟨_, ⟨v, ⟨⟨hz, hg1⟩, hg2⟩, rfl⟩, rfl⟩, d, hd, rfl⟩
    exact ⟨v, hz, hg1, hg2, d, hd, rfl⟩
  · rintro ⟨v, hz, hg1, hg2, d, hd, rfl⟩
    exact ⟨_, ⟨_, ⟨v, ⟨⟨hz, hg1⟩, hg2⟩, rfl⟩, rfl⟩, d, hd, rfl⟩

end Refine
end Reveaal
