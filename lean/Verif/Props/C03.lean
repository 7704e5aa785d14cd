import Verif.Props.C01

/-!
# C03: guards generated from symbolic sets mean that set
-/

namespace Reveaal
open ZoneLib Arith

variable {F : Type} [ZoneLib F]

/-- What the caller of the conversion does with the result: no guard means `true`. -/
def applyOpt (d : Decls) (g : Option BoolE) (z : F) : Res F :=
  match g with
  | none => .ok z
  | some g => applyConstraints d g z

/-- The naming is one: names are distinct (it is a hash map) and stand for real clocks.  Several names may stand for
the same clock. -/
structure GoodNaming (naming : List (String × Nat)) : Prop where
  names : (naming.map Prod.fst).Nodup
  pos : ∀ p ∈ naming, 0 < p.2

/-- The constraint is between distinct positions and every real clock in it has a name. -/
def Constr.Named (naming : List (String × Nat)) (k : Constr) : Prop :=
  ¬ (k.i = 0 ∧ k.j = 0) ∧ (k.i ≠ 0 → k.i ∈ naming.map Prod.snd) ∧
    (k.j ≠ 0 → k.j ∈ naming.map Prod.snd)

theorem lookup_of_mem {α β : Type} [BEq α] [LawfulBEq α] : ∀ {l : List (α × β)} {a : α} {b : β},
    (l.map Prod.fst).Nodup → (a, b) ∈ l → l.lookup a = some b
  | [], _, _, _, h => by simp at h
  | (a', b') :: l, a, b, hn, h => by
    rw [List.map_cons, List.nodup_cons] at hn
    rw [List.lookup_cons]
    rcases List.mem_cons.mp h with h1 | hmem
    · cases h1; simp
    · have : (a == a') = false := by
        rw [beq_eq_false_iff_ne]
        rintro rfl
        exact hn.1 (List.mem_map.mpr ⟨_, hmem, rfl⟩)
      rw [this]
      exact lookup_of_mem hn.2 hmem

theorem lookup_isSome_of_mem {α β : Type} [BEq α] [LawfulBEq α] : ∀ {l : List (α × β)} {a : α},
    a ∈ l.map Prod.fst → ∃ b, l.lookup a = some b
  | [], _, h => by simp at h
  | (a', b') :: l, a, h => by
    rw [List.lookup_cons]
    split
    · exact ⟨_, rfl⟩
    · next he =>
      refine lookup_isSome_of_mem ?_
      rcases List.mem_cons.1 h with h | h
      · exact absurd (beq_iff_eq.2 h) (by simp [he])
      · exact h

theorem invertNaming_some {naming : List (String × Nat)} (hg : GoodNaming naming) {i : Nat} {s : String}
    (h : (invertNaming naming).lookup i = some s) : naming.lookup s = some i := by
  obtain ⟨⟨s', i'⟩, hp, he⟩ := List.mem_map.1 (lookup_mem h)
  cases he
  exact lookup_of_mem hg.names (List.mem_reverse.1 hp)

theorem invertNaming_lookup {naming : List (String × Nat)} (hg : GoodNaming naming) {i : Nat}
    (hi : i ∈ naming.map Prod.snd) : ∃ s, (invertNaming naming).lookup i = some s ∧
      naming.lookup s = some i := by
  obtain ⟨s, hs⟩ : ∃ s, (invertNaming naming).lookup i = some s := by
    refine lookup_isSome_of_mem ?_
    have : (invertNaming naming).map Prod.fst = (naming.map Prod.snd).reverse := by
      simp [invertNaming, Function.comp_def]
    rw [this]; exact List.mem_reverse.2 hi
  exact ⟨s, hs, invertNaming_some hg hs⟩

theorem constVal_int (d : Decls) (c : Int) : (constVal d (.int c)).isSome := rfl

/-- The guard generated for one constraint. -/
theorem fromConstraint_spec {naming : List (String × Nat)} (hg : GoodNaming naming)
    (ints : List (String × Int)) (k : Constr) (hk : k.Named naming) :
    OkOrOvf (fromConstraint (invertNaming naming) k) (fun g => GoodGuard ⟨ints, naming⟩ g ∧
      (∀ n, g.InDim n) ∧ ∀ v : Val, v 0 = 0 → (Holds ⟨ints, naming⟩ v g ↔ k.Sat v)) := by
  obtain ⟨i, j, q⟩ := k
  obtain ⟨h0, hi, hj⟩ := hk
  simp only at h0 hi hj
  have clk : ∀ {m : Nat}, m ≠ 0 → m ∈ naming.map Prod.snd → ∃ s,
      varFromNaming (invertNaming naming) m = .ok (.var s) ∧ IsClock ⟨ints, naming⟩ (.var s) m := by
    intro m _ hm
    obtain ⟨s, h1, h2⟩ := invertNaming_lookup hg hm
    exact ⟨s, by simp [varFromNaming, h1, unwrap, bind, Except.bind], .inr ⟨s, rfl, h2⟩⟩
  unfold fromConstraint
  match i, j, h0, hi, hj with
  | 0, 0, h0, _, _ => exact absurd ⟨rfl, rfl⟩ h0
  | 0, j + 1, _, _, hj =>
    obtain ⟨s, hs, hc⟩ := clk (Nat.succ_ne_zero j) (hj (Nat.succ_ne_zero j))
    simp only [hs]
    refine (chk_ovf _).bind ?_
    rintro _ rfl
    cases q with
    | LE b =>
      refine .ok ⟨.posConst (.chain (.clock hc)) rfl, fun n => ⟨trivial, trivial⟩, fun v hv => ?_⟩
      simp [Holds, hc.value, value_int, Constr.Sat, Ineq.Sat, hv]
      constructor <;> intro h <;> linarith
    | LS b =>
      refine .ok ⟨.posConst (.chain (.clock hc)) rfl, fun n => ⟨trivial, trivial⟩, fun v hv => ?_⟩
      simp [Holds, hc.value, value_int, Constr.Sat, Ineq.Sat, hv]
      constructor <;> intro h <;> linarith
  | i + 1, 0, _, hi, _ =>
    obtain ⟨s, hs, hc⟩ := clk (Nat.succ_ne_zero i) (hi (Nat.succ_ne_zero i))
    simp only [hs]
    cases q with
    | LE b =>
      refine .ok ⟨.posConst (.chain (.clock hc)) rfl, fun n => ⟨trivial, trivial⟩, fun v hv => ?_⟩
      simp [Holds, hc.value, value_int, Constr.Sat, Ineq.Sat, hv]
    | LS b =>
      refine .ok ⟨.posConst (.chain (.clock hc)) rfl, fun n => ⟨trivial, trivial⟩, fun v hv => ?_⟩
      simp [Holds, hc.value, value_int, Constr.Sat, Ineq.Sat, hv]
  | i + 1, j + 1, _, hi, hj =>
    obtain ⟨s, hs, hc⟩ := clk (Nat.succ_ne_zero i) (hi (Nat.succ_ne_zero i))
    obtain ⟨t, ht, hd⟩ := clk (Nat.succ_ne_zero j) (hj (Nat.succ_ne_zero j))
    simp only [hs, ht]
    by_cases hb : (match q with | .LE b => (false, b) | .LS b => (true, b)).2 = 0
    · cases q with
      | LE b =>
        cases hb
        refine .ok ⟨.posPos (.chain (.clock hc)) (.chain (.clock hd)), fun n => ⟨trivial, trivial⟩, fun v hv => ?_⟩
        simp [Holds, hc.value, hd.value, Constr.Sat, Ineq.Sat]
      | LS b =>
        cases hb
        refine .ok ⟨.posPos (.chain (.clock hc)) (.chain (.clock hd)), fun n => ⟨trivial, trivial⟩, fun v hv => ?_⟩
        simp [Holds, hc.value, hd.value, Constr.Sat, Ineq.Sat]
    · cases q with
      | LE b =>
        simp only at hb
        refine .inl ⟨.le (.dif (.var s) (.var t)) (.int b), by simp [bind, Except.bind, hb],
          .diffConst (.posSub (.chain (.clock hc)) hd) rfl, fun n => ⟨⟨trivial, trivial⟩, trivial⟩, fun v hv => ?_⟩
        simp [Holds, value_int, value_dif _ v (hc.value v) (hd.value v), Constr.Sat, Ineq.Sat]
      | LS b =>
        simp only at hb
        refine .inl ⟨.lt (.dif (.var s) (.var t)) (.int b), by simp [bind, Except.bind, hb],
          .diffConst (.posSub (.chain (.clock hc)) hd) rfl, fun n => ⟨⟨trivial, trivial⟩, trivial⟩, fun v hv => ?_⟩
        simp [Holds, value_int, value_dif _ v (hc.value v) (hd.value v), Constr.Sat, Ineq.Sat]

/-- An optional guard of the fragment that means the predicate `P`. -/
def Means (d : Decls) (g : Option BoolE) (P : Val → Prop) : Prop :=
  (∀ e, g = some e → GoodGuard d e ∧ ∀ n, e.InDim n) ∧ ∀ v : Val, v 0 = 0 → (HoldsOpt d v g ↔ P v)

theorem fromConjLoop_spec {naming : List (String × Nat)} (hg : GoodNaming naming)
    (ints : List (String × Int)) : ∀ (c : Conj) (acc : Option BoolE) (P : Val → Prop),
    (∀ k ∈ c, k.Named naming) → Means ⟨ints, naming⟩ acc P →
    OkOrOvf (fromConjLoop (invertNaming naming) acc c)
      (fun g => Means ⟨ints, naming⟩ g (fun v => P v ∧ Conj.Sat c v) ∧ (acc.isSome ∨ c ≠ [] → g.isSome))
  | [], acc, P, _, ha => .ok ⟨⟨ha.1, fun v hv => by simpa [Conj.Sat] using ha.2 v hv⟩, by
      rintro (h | h)
      · exact h
      · exact absurd rfl h⟩
  | k :: c, acc, P, hn, ha => by
    rw [fromConjLoop]
    refine (fromConstraint_spec hg ints k (hn k (.head _))).bind fun e he => ?_
    cases acc with
    | none =>
      refine (fromConjLoop_spec hg ints c (some e) (fun v => P v ∧ k.Sat v)
        (fun k' hk' => hn k' (.tail _ hk')) ⟨?_, fun v hv => ?_⟩).mono ?_
      · rintro _ ⟨⟩; exact ⟨he.1, he.2.1⟩
      · have h1 := ha.2 v hv
        have h2 := he.2.2 v hv
        simp only [HoldsOpt, true_iff] at h1 ⊢
        rw [h2]; tauto
      · intro g hg'
        refine ⟨⟨hg'.1.1, fun v hv => ?_⟩, fun _ => hg'.2 (.inl rfl)⟩
        rw [hg'.1.2 v hv]; simp [Conj.Sat]; tauto
    | some r =>
      refine (fromConjLoop_spec hg ints c (some (.and r e)) (fun v => P v ∧ k.Sat v)
        (fun k' hk' => hn k' (.tail _ hk')) ⟨?_, fun v hv => ?_⟩).mono ?_
      · rintro _ ⟨⟩
        exact ⟨⟨(ha.1 r rfl).1, he.1⟩, fun n => ⟨(ha.1 r rfl).2 n, he.2.1 n⟩⟩
      · have h1 := ha.2 v hv
        have h2 := he.2.2 v hv
        simp only [HoldsOpt, Holds] at h1 ⊢
        rw [h1, h2]
      · intro g hg'
        refine ⟨⟨hg'.1.1, fun v hv => ?_⟩, fun _ => hg'.2 (.inl rfl)⟩
        rw [hg'.1.2 v hv]; simp [Conj.Sat]; tauto

theorem fromConjunction_spec {naming : List (String × Nat)} (hg : GoodNaming naming)
    (ints : List (String × Int)) (c : Conj) (hn : ∀ k ∈ c, k.Named naming) :
    OkOrOvf (fromConjunction (invertNaming naming) c)
      (fun g => Means ⟨ints, naming⟩ g (Conj.Sat c) ∧ (g = none → c = [])) := by
  unfold fromConjunction
  split
  · exact .ok ⟨⟨by rintro _ ⟨⟩, fun v _ => by simp [HoldsOpt, Conj.Sat]⟩, fun _ => rfl⟩
  · next k =>
    refine (fromConstraint_spec hg ints k (hn k (.head _))).bind fun e he => .ok ⟨⟨?_, ?_⟩, by rintro ⟨⟩⟩
    · rintro _ ⟨⟩; exact ⟨he.1, he.2.1⟩
    · intro v hv; simpa [HoldsOpt, Conj.Sat] using he.2.2 v hv
  · next h1 h2 =>
    refine (fromConjLoop_spec hg ints c none (fun _ => True) hn
      ⟨by rintro _ ⟨⟩, fun v _ => by simp [HoldsOpt]⟩).mono fun g hg' => ⟨⟨hg'.1.1, ?_⟩, ?_⟩
    · intro v hv; rw [hg'.1.2 v hv]; simp
    · intro h; subst h
      have := hg'.2 (.inr (by intro hc; exact h1 hc))
      simp at this

theorem fromDisjLoop_spec {naming : List (String × Nat)} (hg : GoodNaming naming)
    (ints : List (String × Int)) : ∀ (D : Disj) (acc : Option BoolE) (P : Val → Prop),
    (∀ c ∈ D, ∀ k ∈ c, k.Named naming) →
    (match acc with | none => D ≠ [] ∧ ∀ v, ¬ P v | some e => Means ⟨ints, naming⟩ (some e) P) →
    OkOrOvf (fromDisjLoop (invertNaming naming) acc D)
      (fun g => Means ⟨ints, naming⟩ g (fun v => P v ∨ Disj.Sat D v))
  | [], acc, P, _, ha => by
    cases acc with
    | none => exact absurd rfl ha.1
    | some e => exact .ok ⟨ha.1, fun v hv => by simpa [Disj.Sat] using ha.2 v hv⟩
  | c :: D, acc, P, hn, ha => by
    rw [fromDisjLoop]
    refine (fromConjunction_spec hg ints c (hn c (.head _))).bind fun e he => ?_
    cases e with
    | none =>
      have := he.2 rfl
      subst this
      exact .ok ⟨by rintro _ ⟨⟩, fun v _ => by simp [HoldsOpt, Disj.Sat, Conj.Sat]⟩
    | some e =>
      have he1 := he.1.1 e rfl
      cases acc with
      | none =>
        refine (fromDisjLoop_spec hg ints D (some e) (Conj.Sat c) (fun c' hc' => hn c' (.tail _ hc'))
          he.1).mono fun g hg' => ⟨hg'.1, fun v hv => ?_⟩
        rw [hg'.2 v hv]
        simp [Disj.Sat, ha.2 v]
      | some r =>
        refine (fromDisjLoop_spec hg ints D (some (.or r e)) (fun v => P v ∨ Conj.Sat c v)
          (fun c' hc' => hn c' (.tail _ hc')) ⟨?_, fun v hv => ?_⟩).mono
            fun g hg' => ⟨hg'.1, fun v hv => ?_⟩
        · rintro _ ⟨⟩
          exact ⟨⟨(ha.1 r rfl).1, he1.1⟩, fun n => ⟨(ha.1 r rfl).2 n, he1.2 n⟩⟩
        · have h1 := ha.2 v hv
          have h2 := he.1.2 v hv
          simp only [HoldsOpt, Holds] at h1 h2 ⊢
          rw [h1, h2]
        · rw [hg'.2 v hv]
          simp [Disj.Sat]; tauto

theorem fromDisjunction_spec {naming : List (String × Nat)} (hg : GoodNaming naming)
    (ints : List (String × Int)) (D : Disj) (hn : ∀ c ∈ D, ∀ k ∈ c, k.Named naming) :
    OkOrOvf (fromDisjunction D naming) (fun g => Means ⟨ints, naming⟩ g (Disj.Sat D)) := by
  unfold fromDisjunction
  split
  · exact .ok ⟨by rintro _ ⟨⟩; exact ⟨trivial, fun _ => trivial⟩, fun v _ => by
      simp [HoldsOpt, Holds, Disj.Sat]⟩
  · next c =>
    refine (fromConjunction_spec hg ints c (hn c (.head _))).mono fun g hg' => ⟨hg'.1.1, fun v hv => ?_⟩
    rw [hg'.1.2 v hv]; simp [Disj.Sat]
  · next h1 h2 =>
    refine (fromDisjLoop_spec hg ints D none (fun _ => False) hn ⟨h1, fun _ h => h⟩).mono
      fun g hg' => ⟨hg'.1, fun v hv => ?_⟩
    rw [hg'.2 v hv]; simp

/-- **C03**: the guard generated for any symbolic set holds exactly in the set's valuations, and
applying it to everything gives back exactly the set; an absent guard means the set is everything.
The only failure is an `i32` overflow panic. -/
theorem C03_generated_guard (naming : List (String × Nat)) (hg : GoodNaming naming)
    (hdim : ∀ p ∈ naming, p.2 < dim F) (ints : List (String × Int)) (D : Disj)
    (hn : ∀ c ∈ D, ∀ k ∈ c, k.Named naming) :
    (∃ g, fromDisjunction D naming = .ok g ∧
      (∀ v : Val, v 0 = 0 → (HoldsOpt ⟨ints, naming⟩ v g ↔ D.Sat v)) ∧
      ((∃ z : F, applyOpt ⟨ints, naming⟩ g univ = .ok z ∧ den z = {v | Valid (dim F) v ∧ D.Sat v}) ∨
        applyOpt ⟨ints, naming⟩ g (univ : F) = .error (.panic "arithmetic overflow"))) ∨
    fromDisjunction D naming = .error (.panic "arithmetic overflow") := by
  rcases fromDisjunction_spec hg ints D hn with ⟨g, h1, h2⟩ | h
  · refine .inl ⟨g, h1, h2.2, ?_⟩
    cases g with
    | none =>
      refine .inl ⟨univ, rfl, ?_⟩
      rw [den_univ]; ext v
      simp only [Set.mem_ofPred_eq]
      refine ⟨fun hv => ⟨hv, (h2.2 v hv.1).mp trivial⟩, fun hv => hv.1⟩
    | some g =>
      have hgood := h2.1 g rfl
      rcases C01_guard_exact_partial (F := F) ⟨ints, naming⟩
        (fun p hp => ⟨hg.pos p hp, hdim p hp⟩) g (hgood.2 _) hgood.1 univ with ⟨z, hz, hd⟩ | h
      · refine .inl ⟨z, hz, ?_⟩
        rw [hd, den_univ]; ext v
        simp only [Set.mem_ofPred_eq]
        exact and_congr_right fun hv => h2.2 v hv.1
      · exact .inr h
  · exact .inr h

/-- The hypotheses are met by `(x > 2 && y - x <= 3) || y < 1`. -/
example :
    let naming := [("x", 1), ("y", 2)]
    let D : Disj := [[⟨0, 1, .LS (-2)⟩, ⟨2, 1, .LE 3⟩], [⟨2, 0, .LS 1⟩]]
    GoodNaming naming ∧ (∀ p ∈ naming, p.2 < 3) ∧ (∀ c ∈ D, ∀ k ∈ c, k.Named naming) ∧
      fromDisjunction D naming = .ok (some (.or
        (.and (.gt (.var "x") (.int 2)) (.le (.dif (.var "y") (.var "x")) (.int 3)))
        (.lt (.var "y") (.int 1)))) := by
  intro naming D
  refine ⟨⟨by decide, by decide⟩, by decide, ?_, by decide⟩
  simp [D, naming, Constr.Named]

end Reveaal
