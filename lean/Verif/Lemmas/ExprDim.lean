import Verif.Lemmas.Expr

/-! The clock indices produced when a comparison is applied stay within the dimension. -/

namespace Reveaal
namespace Arith

/-- `P` holds of every successful result. -/
def OkP {α : Type} (r : Res α) (P : α → Prop) : Prop := ∀ a, r = .ok a → P a

theorem OkP.ok {α} {a : α} {P : α → Prop} (h : P a) : OkP (.ok a) P := by
  rintro _ ⟨⟩; exact h
theorem OkP.error {α} {e : Fail} {P : α → Prop} : OkP (.error e) P := by
  rintro _ ⟨⟩
theorem OkP.bind {α β} {r : Res α} {P : α → Prop} {f : α → Res β} {Q : β → Prop}
    (h : OkP r P) (hf : ∀ a, P a → OkP (f a) Q) : OkP (r >>= f) Q := by
  cases r with
  | error e => exact .error
  | ok a => exact hf a (h a rfl)
theorem OkP.any {α} {r : Res α} : OkP r (fun _ => True) := fun _ _ => trivial
theorem OkP.mono {α} {r : Res α} {P Q : α → Prop} (h : OkP r P) (hpq : ∀ a, P a → Q a) : OkP r Q :=
  fun a ha => hpq a (h a ha)

variable {P : Nat → Prop}

theorem aDif_clocksIn {l r : Arith} (hl : l.ClocksIn P) (hr : r.ClocksIn P) : OkP (aDif l r) (ClocksIn P) := by
  unfold aDif
  split
  · exact .ok hl
  · split
    · exact OkP.any.bind fun _ _ => .ok trivial
    · exact .ok ⟨hl, hr⟩

theorem aAdd_clocksIn {l r : Arith} (hl : l.ClocksIn P) (hr : r.ClocksIn P) : OkP (aAdd l r) (ClocksIn P) := by
  unfold aAdd
  split
  · exact .ok hl
  · split
    · exact .ok hr
    · split
      · exact OkP.any.bind fun _ _ => .ok trivial
      · exact .ok ⟨hl, hr⟩

theorem aMul_clocksIn {l r : Arith} (hl : l.ClocksIn P) (hr : r.ClocksIn P) : OkP (aMul l r) (ClocksIn P) := by
  unfold aMul
  split
  · exact .ok trivial
  · split
    · exact OkP.any.bind fun _ _ => .ok trivial
    · exact .ok ⟨hl, hr⟩

theorem aDiv_clocksIn {l r : Arith} (hl : l.ClocksIn P) (hr : r.ClocksIn P) : OkP (aDiv l r) (ClocksIn P) := by
  unfold aDiv
  split
  · exact .ok trivial
  · split
    · exact OkP.any.bind fun _ _ => .ok trivial
    · exact .ok ⟨hl, hr⟩

theorem aMod_clocksIn {l r : Arith} (hl : l.ClocksIn P) (hr : r.ClocksIn P) : OkP (aMod l r) (ClocksIn P) := by
  unfold aMod
  split
  · exact OkP.any.bind fun _ _ => .ok trivial
  · exact .ok ⟨hl, hr⟩

theorem replaceVars_clocksIn {d : Decls} (hd : d.ClocksIn P) : ∀ e : Arith, e.ClocksIn P →
    OkP (e.replaceVars d) (ClocksIn P)
  | .int _, _ => .ok trivial
  | .clock _, h => .ok h
  | .var m, _ => by
    simp only [replaceVars]
    cases h : d.clocks.lookup m with
    | some x => exact .ok (hd _ (lookup_mem h))
    | none =>
      cases d.ints.lookup m with
      | some x => exact .ok trivial
      | none => exact .error
  | .dif l r, h => (replaceVars_clocksIn hd l h.1).bind fun _ h1 =>
      (replaceVars_clocksIn hd r h.2).bind fun _ h2 => aDif_clocksIn h1 h2
  | .add l r, h => (replaceVars_clocksIn hd l h.1).bind fun _ h1 =>
      (replaceVars_clocksIn hd r h.2).bind fun _ h2 => aAdd_clocksIn h1 h2
  | .mul l r, h => (replaceVars_clocksIn hd l h.1).bind fun _ h1 =>
      (replaceVars_clocksIn hd r h.2).bind fun _ h2 => aMul_clocksIn h1 h2
  | .div l r, h => (replaceVars_clocksIn hd l h.1).bind fun _ h1 =>
      (replaceVars_clocksIn hd r h.2).bind fun _ h2 => aDiv_clocksIn h1 h2
  | .mod l r, h => (replaceVars_clocksIn hd l h.1).bind fun _ h1 =>
      (replaceVars_clocksIn hd r h.2).bind fun _ h2 => aMod_clocksIn h1 h2

theorem cloneExpr_clocksIn {a b : Arith} {e : Option String} (hb : b.ClocksIn P) :
    OkP (cloneExpr a b e) (fun o => ∀ x, o = some x → x.ClocksIn P) := by
  unfold cloneExpr
  split
  · split
    · exact .error
    · exact .ok (by rintro _ ⟨⟩; exact hb)
  · exact .ok (by rintro _ ⟨⟩; exact hb)
  · exact .ok (by rintro _ ⟨⟩)

theorem getD_clocksIn {o : Option Arith} {a : Arith} (h : ∀ x, o = some x → x.ClocksIn P) (ha : a.ClocksIn P) :
    (o.getD a).ClocksIn P := by
  cases o with
  | none => exact ha
  | some x => exact h x rfl

theorem move_clocksIn : ∀ (e : Arith) (op : Op), e.ClocksIn P →
    OkP (e.moveClockAndVars op) (fun p => p.1.ClocksIn P ∧ ∀ x, p.2 = some x → x.1.ClocksIn P)
  | .int _, _, _ => .ok ⟨trivial, by rintro _ ⟨⟩⟩
  | .clock _, _, h => .ok ⟨trivial, by rintro _ ⟨⟩; exact h⟩
  | .var _, _, h => .ok ⟨trivial, by rintro _ ⟨⟩; exact h⟩
  | .dif l r, _, h => by
    simp only [moveClockAndVars]; split
    · exact (cloneExpr_clocksIn h.2).bind fun _ h1 => (move_clocksIn l _ h.1).bind fun _ h2 =>
        .ok ⟨getD_clocksIn h1 ⟨h2.1, h.2⟩, h2.2⟩
    · split
      · exact (cloneExpr_clocksIn h.1).bind fun _ h1 => (move_clocksIn r _ h.2).bind fun _ h2 =>
          .ok ⟨getD_clocksIn h1 ⟨h.1, h2.1⟩, h2.2⟩
      · exact .ok ⟨h, by rintro _ ⟨⟩⟩
  | .add l r, _, h => by
    simp only [moveClockAndVars]; split
    · exact (cloneExpr_clocksIn h.2).bind fun _ h1 => (move_clocksIn l _ h.1).bind fun _ h2 =>
        .ok ⟨getD_clocksIn h1 ⟨h2.1, h.2⟩, h2.2⟩
    · split
      · exact (cloneExpr_clocksIn h.1).bind fun _ h1 => (move_clocksIn r _ h.2).bind fun _ h2 =>
          .ok ⟨getD_clocksIn h1 ⟨h.1, h2.1⟩, h2.2⟩
      · exact .ok ⟨h, by rintro _ ⟨⟩⟩
  | .mul l r, _, h => by
    simp only [moveClockAndVars]; split
    · exact (cloneExpr_clocksIn h.2).bind fun _ h1 => (move_clocksIn l _ h.1).bind fun _ h2 =>
        .ok ⟨getD_clocksIn h1 ⟨h2.1, h.2⟩, h2.2⟩
    · split
      · exact (cloneExpr_clocksIn h.1).bind fun _ h1 => (move_clocksIn r _ h.2).bind fun _ h2 =>
          .ok ⟨getD_clocksIn h1 ⟨h.1, h2.1⟩, h2.2⟩
      · exact .ok ⟨h, by rintro _ ⟨⟩⟩
  | .div l r, _, h => by
    simp only [moveClockAndVars]; split
    · exact (cloneExpr_clocksIn h.2).bind fun _ h1 => (move_clocksIn l _ h.1).bind fun _ h2 =>
        .ok ⟨getD_clocksIn h1 ⟨h2.1, h.2⟩, h2.2⟩
    · split
      · exact (cloneExpr_clocksIn h.1).bind fun _ h1 => (move_clocksIn r _ h.2).bind fun _ h2 =>
          .ok ⟨getD_clocksIn h1 ⟨h.1, h2.1⟩, h2.2⟩
      · exact .ok ⟨h, by rintro _ ⟨⟩⟩
  | .mod l r, _, h => by
    simp only [moveClockAndVars]; split
    · exact (cloneExpr_clocksIn h.2).bind fun _ h1 => (move_clocksIn l _ h.1).bind fun _ h2 =>
        .ok ⟨getD_clocksIn h1 ⟨h2.1, h.2⟩, h2.2⟩
    · split
      · exact (cloneExpr_clocksIn h.1).bind fun _ h1 => (move_clocksIn r _ h.2).bind fun _ h2 =>
          .ok ⟨getD_clocksIn h1 ⟨h.1, h2.1⟩, h2.2⟩
      · exact .ok ⟨h, by rintro _ ⟨⟩⟩

theorem extractLoop_clocksIn : ∀ (k : Nat) (e : Arith) (op : Op), e.ClocksIn P →
    OkP (extractLoop k e op) (fun p => p.1.ClocksIn P ∧ ∀ x ∈ p.2, x.1.ClocksIn P)
  | 0, _, _, _ => .error
  | k + 1, e, op, h => by
    simp only [extractLoop]
    refine (move_clocksIn e op h).bind fun p hp => ?_
    obtain ⟨e', out⟩ := p
    cases out with
    | none => exact .ok ⟨hp.1, by simp⟩
    | some x =>
      refine (extractLoop_clocksIn k e' x.2 hp.1).bind fun q hq => .ok ⟨hq.1, ?_⟩
      intro y hy
      rcases List.mem_cons.mp hy with rfl | hy
      · exact hp.2 _ rfl
      · exact hq.2 y hy

theorem rebuildStep_clocksIn {x : Arith × Op} {out : Arith} (hx : x.1.ClocksIn P) (ho : out.ClocksIn P) :
    OkP (rebuildStep x out) (ClocksIn P) := by
  unfold rebuildStep
  split
  · exact aDif_clocksIn ho hx
  · exact aDif_clocksIn hx ho
  · exact aAdd_clocksIn ho hx
  · exact aAdd_clocksIn hx ho
  · exact aMul_clocksIn ho hx
  · exact aMul_clocksIn hx ho
  · exact aDiv_clocksIn ho hx
  · exact aDiv_clocksIn hx ho
  · exact aMod_clocksIn ho hx
  · exact aMod_clocksIn hx ho
  · exact .ok hx

theorem rebuild_clocksIn : ∀ (l : List (Arith × Op)) (out : Arith), (∀ x ∈ l, x.1.ClocksIn P) →
    out.ClocksIn P → OkP (rebuild l out) (ClocksIn P)
  | [], _, _, h => .ok h
  | x :: xs, out, hl, h =>
    (rebuild_clocksIn xs out (fun y hy => hl y (.tail _ hy)) h).bind fun _ h1 =>
      rebuildStep_clocksIn (hl x (.head _)) h1

theorem simplifyHelper_clocksIn : ∀ e : Arith, e.ClocksIn P → OkP e.simplifyHelper (fun p => p.1.ClocksIn P)
  | .int _, h => .ok h
  | .clock _, h => .ok h
  | .var _, h => .ok h
  | .dif l r, h => (simplifyHelper_clocksIn l h.1).bind fun p h1 => (simplifyHelper_clocksIn r h.2).bind fun q h2 => by
    obtain ⟨p, _⟩ := p; obtain ⟨q, _⟩ := q
    dsimp only; split
    · exact OkP.any.bind fun _ _ => .ok trivial
    · exact .ok ⟨h1, h2⟩
  | .add l r, h => (simplifyHelper_clocksIn l h.1).bind fun p h1 => (simplifyHelper_clocksIn r h.2).bind fun q h2 => by
    obtain ⟨p, _⟩ := p; obtain ⟨q, _⟩ := q
    dsimp only; split
    · exact OkP.any.bind fun _ _ => .ok trivial
    · exact .ok ⟨h1, h2⟩
  | .mul l r, h => (simplifyHelper_clocksIn l h.1).bind fun p h1 => (simplifyHelper_clocksIn r h.2).bind fun q h2 => by
    obtain ⟨p, _⟩ := p; obtain ⟨q, _⟩ := q
    dsimp only; split
    · exact OkP.any.bind fun _ _ => .ok trivial
    · exact .ok ⟨h1, h2⟩
  | .div l r, h => (simplifyHelper_clocksIn l h.1).bind fun p h1 => (simplifyHelper_clocksIn r h.2).bind fun q h2 => by
    obtain ⟨p, _⟩ := p; obtain ⟨q, _⟩ := q
    dsimp only; split
    · exact OkP.any.bind fun _ _ => .ok trivial
    · exact .ok ⟨h1, h2⟩
  | .mod l r, h => (simplifyHelper_clocksIn l h.1).bind fun p h1 => (simplifyHelper_clocksIn r h.2).bind fun q h2 => by
    obtain ⟨p, _⟩ := p; obtain ⟨q, _⟩ := q
    dsimp only; split
    · exact OkP.any.bind fun _ _ => .ok trivial
    · exact .ok ⟨h1, h2⟩

theorem foldLoop_clocksIn : ∀ (k : Nat) (e : Arith), e.ClocksIn P → OkP (foldLoop k e) (ClocksIn P)
  | 0, _, _ => .error
  | k + 1, e, h => by
    rw [foldLoop_succ]
    refine (simplifyHelper_clocksIn e h).bind fun p hp => ?_
    split
    · exact foldLoop_clocksIn k _ hp
    · exact .ok hp

theorem simplify_clocksIn (e : Arith) (h : e.ClocksIn P) : OkP e.simplify (ClocksIn P) :=
  (extractLoop_clocksIn _ e _ h).bind fun _ hp => (rebuild_clocksIn _ _ hp.2 hp.1).bind fun out ho =>
    foldLoop_clocksIn _ out ho

end Arith

open Arith

theorem getClockVal_clocksIn {P : Nat → Prop} : ∀ (e : Arith) (k : Nat) (b : Bool), e.ClocksIn P →
    OkP (getClockVal e k b) (fun p => P p.1.value ∧ ∀ c, p.2 = some c → P c.value) := by
  intro e
  induction e with
  | int c => intro k b _; exact .error
  | var c => intro k b _; exact .error
  | mul l r _ _ | div l r _ _ | mod l r _ _ => intro k b _; exact .error
  | clock x =>
    intro k b h; simp only [getClockVal]; split
    · exact .error
    · exact .ok ⟨h, by rintro _ ⟨⟩⟩
  | dif l r ihl ihr =>
    intro k b h
    unfold getClockVal
    split <;> try exact OkP.error
    all_goals simp_all only [Arith.dif.injEq, reduceCtorEq]
    · rename_i h1
      obtain ⟨rfl, rfl⟩ := h1
      split
      · exact (ihr _ _ h.2).bind fun _ h2 => .ok ⟨h.1, by rintro _ ⟨⟩; exact h2.1⟩
      · exact .ok ⟨h.1, by rintro _ ⟨⟩⟩
    · rename_i h1
      obtain ⟨rfl, rfl⟩ := h1
      split
      · exact (ihl _ _ h.1).bind fun _ h2 => .ok ⟨h.2, by rintro _ ⟨⟩; exact h2.1⟩
      · exact .ok ⟨h.2, by rintro _ ⟨⟩⟩
  | add l r ihl ihr =>
    intro k b h
    unfold getClockVal
    split <;> try exact OkP.error
    all_goals simp_all only [Arith.add.injEq, reduceCtorEq]
    · rename_i h1
      obtain ⟨rfl, rfl⟩ := h1
      split
      · exact (ihr _ _ h.2).bind fun _ h2 => .ok ⟨h.1, by rintro _ ⟨⟩; exact h2.1⟩
      · exact .ok ⟨h.1, by rintro _ ⟨⟩⟩
    · rename_i h1
      obtain ⟨rfl, rfl⟩ := h1
      split
      · exact (ihl _ _ h.1).bind fun _ h2 => .ok ⟨h.2, by rintro _ ⟨⟩; exact h2.1⟩
      · exact .ok ⟨h.2, by rintro _ ⟨⟩⟩

theorem combineClocks_clocksIn {P : Nat → Prop} {c1 c2 : Clk} {k : Int} {b : Bool} (h1 : P c1.value)
    (h2 : P c2.value) : OkP (combineClocks c1 c2 k b) (fun p => P p.1 ∧ P p.2.1) := by
  unfold combineClocks
  split
  · exact .error
  · split
    · exact .ok ⟨h1, h2⟩
    · exact .ok ⟨h2, h1⟩

theorem unwrap_okP {α : Type} (o : Option α) : OkP (unwrap o) (fun a => o = some a) := by
  cases o with
  | none => exact .error
  | some a => exact .ok rfl

theorem getIndices_clocksIn {d : Decls} {P : Nat → Prop} {l r : Arith} (hd : d.ClocksIn P)
    (hl : l.ClocksIn P) (hr : r.ClocksIn P) :
    OkP (getIndices d l r) (fun p => (p.1 = 0 ∨ P p.1) ∧ (p.2.1 = 0 ∨ P p.2.1)) := by
  have both : ∀ p : Nat × Nat × Int, P p.1 ∧ P p.2.1 →
      (p.1 = 0 ∨ P p.1) ∧ (p.2.1 = 0 ∨ P p.2.1) := fun p h => ⟨.inr h.1, .inr h.2⟩
  simp only [getIndices]
  refine (replaceVars_clocksIn hd l hl).bind fun l1 hl1 => (simplify_clocksIn l1 hl1).bind fun l2 hl2 =>
    (replaceVars_clocksIn hd r hr).bind fun r1 hr1 => (simplify_clocksIn r1 hr1).bind fun r2 hr2 => ?_
  unfold simplifiedIndices
  dsimp only
  split
  · exact .error
  split
  · exact .error
  refine OkP.any.bind fun _ _ => OkP.any.bind fun _ _ => OkP.any.bind fun _ _ => ?_
  split
  · exact (getClockVal_clocksIn l2 _ _ hl2).bind fun _ h1 =>
      (getClockVal_clocksIn r2 _ _ hr2).bind fun _ h2 => (combineClocks_clocksIn h1.1 h2.1).mono both
  · exact (getClockVal_clocksIn l2 _ _ hl2).bind fun _ h1 => (unwrap_okP _).bind fun _ h2 =>
      (combineClocks_clocksIn h1.1 (h1.2 _ h2)).mono both
  · exact (getClockVal_clocksIn r2 _ _ hr2).bind fun _ h1 => (unwrap_okP _).bind fun c2 h2 =>
      (combineClocks_clocksIn (c1 := Clk.invert _) (c2 := Clk.invert _) h1.1
        (show P c2.value from h1.2 _ h2)).mono both
  · refine (getClockVal_clocksIn l2 _ _ hl2).bind fun _ h1 => ?_
    split
    · exact .ok ⟨.inl rfl, .inr h1.1⟩
    · exact .ok ⟨.inr h1.1, .inl rfl⟩
  · refine (getClockVal_clocksIn r2 _ _ hr2).bind fun _ h1 => ?_
    split
    · exact .ok ⟨.inl rfl, .inr h1.1⟩
    · exact .ok ⟨.inr h1.1, .inl rfl⟩
  · exact .error

theorem getIndices_inDim {d : Decls} {n : Nat} {l r : Arith} (hn : 0 < n) (hd : d.InDim n)
    (hl : l.InDim n) (hr : r.InDim n) :
    OkP (getIndices d l r) (fun p => p.1 < n ∧ p.2.1 < n) := by
  refine (getIndices_clocksIn hd hl hr).mono fun p h => ?_
  rcases h.1 with h1 | h1 <;> rcases h.2 with h2 | h2 <;> constructor <;> omega

end Reveaal
