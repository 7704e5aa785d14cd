import Verif.Spec.Guard
import Mathlib.Tactic.Linarith
import Mathlib.Tactic.Ring

/-! Auxiliary facts about the expression model, used by the property files. -/

namespace Reveaal

/-- The computation succeeds with a result satisfying `P`, or stops at an `i32` overflow. -/
def OkOrOvf {α : Type} (r : Res α) (P : α → Prop) : Prop :=
  (∃ a, r = .ok a ∧ P a) ∨ r = .error (.panic "arithmetic overflow")

theorem OkOrOvf.ok {α} {a : α} {P : α → Prop} (h : P a) : OkOrOvf (.ok a) P := .inl ⟨a, rfl, h⟩

theorem OkOrOvf.bind {α β} {r : Res α} {P : α → Prop} {f : α → Res β} {Q : β → Prop}
    (h : OkOrOvf r P) (hf : ∀ a, P a → OkOrOvf (f a) Q) : OkOrOvf (r >>= f) Q := by
  rcases h with ⟨a, rfl, ha⟩ | rfl
  · exact hf a ha
  · exact .inr rfl

theorem OkOrOvf.mono {α} {r : Res α} {P Q : α → Prop} (h : OkOrOvf r P) (hpq : ∀ a, P a → Q a) :
    OkOrOvf r Q := by
  rcases h with ⟨a, rfl, ha⟩ | rfl
  · exact .inl ⟨a, rfl, hpq a ha⟩
  · exact .inr rfl

theorem OkOrOvf.of_ok {α} {r : Res α} {P : α → Prop} {a : α} (h : OkOrOvf r P) (he : r = .ok a) :
    P a := by
  subst he
  rcases h with ⟨b, hb, h⟩ | h
  · cases hb; exact h
  · cases h

theorem chk_ovf (x : Int) : OkOrOvf (chk x) (· = x) := by
  unfold chk; split
  · exact .ok rfl
  · exact .inr rfl

theorem i32Div_ovf {x y : Int} (h : y ≠ 0) : OkOrOvf (i32Div x y) (· = x.tdiv y) := by
  unfold i32Div; rw [if_neg h]; exact chk_ovf _

theorem i32Mod_ovf {x y : Int} (h : y ≠ 0) : OkOrOvf (i32Mod x y) (· = x.tmod y) := by
  unfold i32Mod; rw [if_neg h]; split
  · exact .inr rfl
  · exact .ok rfl

namespace Arith

theorem aDif_int (a b : Int) : OkOrOvf (aDif (int a) (int b)) (· = int (a - b)) := by
  unfold aDif; split
  · next h => cases h; exact .ok (by simp)
  · exact (chk_ovf _).bind fun c hc => .ok (by rw [hc])

theorem aAdd_int (a b : Int) : OkOrOvf (aAdd (int a) (int b)) (· = int (a + b)) := by
  unfold aAdd; split
  · next h => cases h; exact .ok (by simp)
  · split
    · next h => cases h; exact .ok (by simp)
    · exact (chk_ovf _).bind fun c hc => .ok (by rw [hc])

theorem aMul_int (a b : Int) : OkOrOvf (aMul (int a) (int b)) (· = int (a * b)) := by
  unfold aMul; split
  · next h => rcases h with h | h <;> cases h <;> exact .ok (by simp)
  · exact (chk_ovf _).bind fun c hc => .ok (by rw [hc])

theorem aDiv_int {a b : Int} (hb : b ≠ 0) : OkOrOvf (aDiv (int a) (int b)) (· = int (a.tdiv b)) := by
  unfold aDiv; split
  · next h => 
    rcases h with h | h <;> cases h
    · exact absurd rfl hb
    · exact .ok (by simp)
  · exact (i32Div_ovf hb).bind fun c hc => .ok (by rw [hc])

theorem aMod_int {a b : Int} (hb : b ≠ 0) : OkOrOvf (aMod (int a) (int b)) (· = int (a.tmod b)) :=
  (i32Mod_ovf hb).bind fun c hc => .ok (by rw [hc])

/-- Replacing the names of a constant expression folds it to its value. -/
theorem replaceVars_const (d : Decls) : ∀ (e : Arith) (c : Int), constVal d e = some c →
    OkOrOvf (e.replaceVars d) (· = int c)
  | .int k, c, h => by simp [constVal] at h; subst h; exact .ok rfl
  | .clock i, c, h => by simp [constVal] at h
  | .var n, c, h => by
    simp only [constVal] at h
    split at h
    · simp at h
    · next h1 =>
      simp only [replaceVars]
      cases hc : d.clocks.lookup n with
      | some x => simp [hc] at h1
      | none => simp only [h]; exact .ok rfl
  | .add l r, c, h => by
    simp only [constVal, Option.bind_eq_bind, Option.bind_eq_some_iff, Option.some.injEq] at h
    obtain ⟨a, ha, b, hb, rfl⟩ := h
    exact (replaceVars_const d l a ha).bind fun _ h1 => (replaceVars_const d r b hb).bind fun _ h2 => by
      subst h1 h2; exact aAdd_int a b
  | .dif l r, c, h => by
    simp only [constVal, Option.bind_eq_bind, Option.bind_eq_some_iff, Option.some.injEq] at h
    obtain ⟨a, ha, b, hb, rfl⟩ := h
    exact (replaceVars_const d l a ha).bind fun _ h1 => (replaceVars_const d r b hb).bind fun _ h2 => by
      subst h1 h2; exact aDif_int a b
  | .mul l r, c, h => by
    simp only [constVal, Option.bind_eq_bind, Option.bind_eq_some_iff, Option.some.injEq] at h
    obtain ⟨a, ha, b, hb, rfl⟩ := h
    exact (replaceVars_const d l a ha).bind fun _ h1 => (replaceVars_const d r b hb).bind fun _ h2 => by
      subst h1 h2; exact aMul_int a b
  | .div l r, c, h => by
    simp only [constVal, Option.bind_eq_bind, Option.bind_eq_some_iff] at h
    obtain ⟨a, ha, b, hb, h⟩ := h
    split at h
    · simp at h
    · next hne =>
      simp only [Option.some.injEq] at h; subst h
      exact (replaceVars_const d l a ha).bind fun _ h1 => (replaceVars_const d r b hb).bind fun _ h2 => by
        subst h1 h2; exact aDiv_int hne
  | .mod l r, c, h => by
    simp only [constVal, Option.bind_eq_bind, Option.bind_eq_some_iff] at h
    obtain ⟨a, ha, b, hb, h⟩ := h
    split at h
    · simp at h
    · next hne =>
      simp only [Option.some.injEq] at h; subst h
      exact (replaceVars_const d l a ha).bind fun _ h1 => (replaceVars_const d r b hb).bind fun _ h2 => by
        subst h1 h2; exact aMod_int hne

/-- The value over the reals of a constant expression. -/
theorem value_const (d : Decls) (v : Val) : ∀ (e : Arith) (c : Int), constVal d e = some c →
    value d v e = some (c : ℝ)
  | .int k, c, h => by simp [constVal] at h; subst h; rfl
  | .clock i, c, h => by simp [constVal] at h
  | .var n, c, h => by
    simp only [constVal] at h
    split at h
    · simp at h
    · next h1 =>
      simp only [value]
      cases hc : d.clocks.lookup n with
      | some x => simp [hc] at h1
      | none => simp only [h]; rfl
  | .add l r, c, h => by
    simp only [constVal, Option.bind_eq_bind, Option.bind_eq_some_iff, Option.some.injEq] at h
    obtain ⟨a, ha, b, hb, rfl⟩ := h
    simp [value, value_const d v l a ha, value_const d v r b hb]
  | .dif l r, c, h => by
    simp only [constVal, Option.bind_eq_bind, Option.bind_eq_some_iff, Option.some.injEq] at h
    obtain ⟨a, ha, b, hb, rfl⟩ := h
    simp [value, value_const d v l a ha, value_const d v r b hb]
  | .mul l r, c, h => by
    simp only [constVal, Option.bind_eq_bind, Option.bind_eq_some_iff, Option.some.injEq] at h
    obtain ⟨a, ha, b, hb, rfl⟩ := h
    simp [value, value_const d v l a ha, value_const d v r b hb]
  | .div l r, c, h => by simp [value, h]
  | .mod l r, c, h => by simp [value, h]

/-- Constant folding of an expression without clocks. -/
theorem simplifyHelper_const (d : Decls) : ∀ (e : Arith) (c : Int), e.clockVarCount = 0 →
    constVal d e = some c → OkOrOvf e.simplifyHelper (fun p => p.1 = int c)
  | .int k, c, _, h => by simp [constVal] at h; subst h; exact .ok rfl
  | .clock i, c, _, h => by simp [constVal] at h
  | .var n, c, h0, h => by simp [clockVarCount] at h0
  | .add l r, c, h0, h => by
    simp only [constVal, Option.bind_eq_bind, Option.bind_eq_some_iff, Option.some.injEq] at h
    obtain ⟨a, ha, b, hb, rfl⟩ := h
    simp only [clockVarCount, Nat.add_eq_zero_iff] at h0
    refine (simplifyHelper_const d l a h0.1 ha).bind fun p h1 =>
      (simplifyHelper_const d r b h0.2 hb).bind fun q h2 => ?_
    obtain ⟨p1, p2⟩ := p; obtain ⟨q1, q2⟩ := q; cases h1; cases h2; exact (chk_ovf _).bind fun c hc => .ok (by rw [hc])
  | .dif l r, c, h0, h => by
    simp only [constVal, Option.bind_eq_bind, Option.bind_eq_some_iff, Option.some.injEq] at h
    obtain ⟨a, ha, b, hb, rfl⟩ := h
    simp only [clockVarCount, Nat.add_eq_zero_iff] at h0
    refine (simplifyHelper_const d l a h0.1 ha).bind fun p h1 =>
      (simplifyHelper_const d r b h0.2 hb).bind fun q h2 => ?_
    obtain ⟨p1, p2⟩ := p; obtain ⟨q1, q2⟩ := q; cases h1; cases h2; exact (chk_ovf _).bind fun c hc => .ok (by rw [hc])
  | .mul l r, c, h0, h => by
    simp only [constVal, Option.bind_eq_bind, Option.bind_eq_some_iff, Option.some.injEq] at h
    obtain ⟨a, ha, b, hb, rfl⟩ := h
    simp only [clockVarCount, Nat.add_eq_zero_iff] at h0
    refine (simplifyHelper_const d l a h0.1 ha).bind fun p h1 =>
      (simplifyHelper_const d r b h0.2 hb).bind fun q h2 => ?_
    obtain ⟨p1, p2⟩ := p; obtain ⟨q1, q2⟩ := q; cases h1; cases h2; exact (chk_ovf _).bind fun c hc => .ok (by rw [hc])
  | .div l r, c, h0, h => by
    simp only [constVal, Option.bind_eq_bind, Option.bind_eq_some_iff] at h
    obtain ⟨a, ha, b, hb, h⟩ := h
    split at h
    · simp at h
    · next hne =>
      simp only [Option.some.injEq] at h; subst h
      simp only [clockVarCount, Nat.add_eq_zero_iff] at h0
      refine (simplifyHelper_const d l a h0.1 ha).bind fun p h1 =>
        (simplifyHelper_const d r b h0.2 hb).bind fun q h2 => ?_
      obtain ⟨p1, p2⟩ := p; obtain ⟨q1, q2⟩ := q; cases h1; cases h2; exact (i32Div_ovf hne).bind fun c hc => .ok (by rw [hc])
  | .mod l r, c, h0, h => by
    simp only [constVal, Option.bind_eq_bind, Option.bind_eq_some_iff] at h
    obtain ⟨a, ha, b, hb, h⟩ := h
    split at h
    · simp at h
    · next hne =>
      simp only [Option.some.injEq] at h; subst h
      simp only [clockVarCount, Nat.add_eq_zero_iff] at h0
      refine (simplifyHelper_const d l a h0.1 ha).bind fun p h1 =>
        (simplifyHelper_const d r b h0.2 hb).bind fun q h2 => ?_
      obtain ⟨p1, p2⟩ := p; obtain ⟨q1, q2⟩ := q; cases h1; cases h2; exact (i32Mod_ovf hne).bind fun c hc => .ok (by rw [hc])

/-- Nothing is extracted from an expression without clocks and variables. -/
theorem move_const (e : Arith) (op : Op) (h : e.clockVarCount = 0) :
    e.moveClockAndVars op = .ok (e, none) := by
  cases e <;> simp_all [clockVarCount, moveClockAndVars]

/-! ### Termination of the extraction and folding loops -/

theorem move_count : ∀ (e : Arith) (op : Op) (e' : Arith) (x : Arith × Op),
    e.moveClockAndVars op = .ok (e', some x) → e'.clockVarCount < e.clockVarCount := by
  intro e
  induction e with
  | clock i => intro op e' x h; simp [moveClockAndVars] at h; obtain ⟨rfl, _⟩ := h; simp [clockVarCount]
  | var n => intro op e' x h; simp [moveClockAndVars] at h; obtain ⟨rfl, _⟩ := h; simp [clockVarCount]
  | int c => intro op e' x h; simp [moveClockAndVars] at h
  | dif l r ihl ihr | add l r ihl ihr | mul l r ihl ihr | div l r ihl ihr | mod l r ihl ihr =>
    all_goals
      intro op e' x h
      simp only [moveClockAndVars] at h
      split at h
      · next hl =>
        simp only [bind, Except.bind] at h
        split at h
        · cases h
        · next sw hsw =>
          split at h
          · cases h
          · next p hp =>
            obtain ⟨l', out⟩ := p
            simp only [Except.ok.injEq, Prod.mk.injEq] at h
            obtain ⟨rfl, rfl⟩ := h
            have := ihl _ _ _ hp
            cases sw with
            | none => simp [clockVarCount]; omega
            | some s =>
              have : s = r := by
                cases l <;> simp [cloneExpr] at hsw <;> exact hsw.symm
              subst this; simp [clockVarCount]; omega
      · split at h
        · next hr =>
          simp only [bind, Except.bind] at h
          split at h
          · cases h
          · next sw hsw =>
            split at h
            · cases h
            · next p hp =>
              obtain ⟨l', out⟩ := p
              simp only [Except.ok.injEq, Prod.mk.injEq] at h
              obtain ⟨rfl, rfl⟩ := h
              have := ihr _ _ _ hp
              cases sw with
              | none => simp [clockVarCount]; omega
              | some s =>
                have : s = l := by
                  cases r <;> simp [cloneExpr] at hsw <;> exact hsw.symm
                subst this; simp [clockVarCount]; omega
        · simp at h

/-! ### The shapes of one-clock sides -/

/-- After name resolution: the clock `x` plus constants adding up to `k`. -/
inductive RPos (x : Nat) : Arith → Int → Prop
  | clock : RPos x (.clock x) 0
  | addR {e k c} : RPos x e k → RPos x (.add e (.int c)) (k + c)
  | addL {e k c} : RPos x e k → RPos x (.add (.int c) e) (c + k)

/-- After name resolution: constants adding up to `k`, minus the clock `x`. -/
inductive RNeg (x : Nat) : Arith → Int → Prop
  | base {c} : RNeg x (.dif (.int c) (.clock x)) c
  | addR {e k c} : RNeg x e k → RNeg x (.add e (.int c)) (k + c)
  | addL {e k c} : RNeg x e k → RNeg x (.add (.int c) e) (c + k)
  | subR {e k c} : RNeg x e k → RNeg x (.dif e (.int c)) (k - c)

theorem RPos.count {x e k} (h : RPos x e k) : e.clockVarCount = 1 := by
  induction h <;> simp_all [clockVarCount]

theorem RNeg.count {x e k} (h : RNeg x e k) : e.clockVarCount = 1 := by
  induction h <;> simp_all [clockVarCount]

theorem RPos.ne_int {x e k} (h : RPos x e k) (c : Int) : e ≠ int c := by
  cases h <;> simp
theorem RNeg.ne_int {x e k} (h : RNeg x e k) (c : Int) : e ≠ int c := by
  cases h <;> simp

theorem RPos.isClock {x y e k} (h : RPos x e k) (he : e = .clock y) : y = x ∧ k = 0 := by
  cases h <;> simp_all

theorem aAdd_RPos {x e k} (h : RPos x e k) (c : Int) :
    ∃ e', aAdd e (int c) = .ok e' ∧ RPos x e' (k + c) := by
  unfold aAdd
  split
  · next h0 => cases h0; exact ⟨e, rfl, by simpa using h⟩
  · rw [if_neg (h.ne_int 0)]
    refine ⟨_, ?_, h.addR⟩
    cases h <;> rfl

theorem aAdd_RPos' {x e k} (h : RPos x e k) (c : Int) :
    ∃ e', aAdd (int c) e = .ok e' ∧ RPos x e' (c + k) := by
  unfold aAdd
  rw [if_neg (h.ne_int 0)]
  split
  · next h0 => cases h0; exact ⟨e, rfl, by simpa using h⟩
  · refine ⟨_, ?_, h.addL⟩
    cases h <;> rfl

theorem aAdd_RNeg {x e k} (h : RNeg x e k) (c : Int) :
    ∃ e', aAdd e (int c) = .ok e' ∧ RNeg x e' (k + c) := by
  unfold aAdd
  split
  · next h0 => cases h0; exact ⟨e, rfl, by simpa using h⟩
  · rw [if_neg (h.ne_int 0)]
    refine ⟨_, ?_, h.addR⟩
    cases h <;> rfl

theorem aAdd_RNeg' {x e k} (h : RNeg x e k) (c : Int) :
    ∃ e', aAdd (int c) e = .ok e' ∧ RNeg x e' (c + k) := by
  unfold aAdd
  rw [if_neg (h.ne_int 0)]
  split
  · next h0 => cases h0; exact ⟨e, rfl, by simpa using h⟩
  · refine ⟨_, ?_, h.addL⟩
    cases h <;> rfl

theorem aDif_RNeg {x e k} (h : RNeg x e k) (c : Int) :
    ∃ e', aDif e (int c) = .ok e' ∧ RNeg x e' (k - c) := by
  unfold aDif
  split
  · next h0 => cases h0; exact ⟨e, rfl, by simpa using h⟩
  · refine ⟨_, ?_, h.subR⟩
    cases h <;> rfl

/-- What the extraction of the only clock of an expression yields. -/
def Moves (e : Arith) (x : Nat) (k : Int) (P : Op → Prop) : Prop :=
  ∀ op, ∃ K op', e.moveClockAndVars op = .ok (K, some (clock x, op')) ∧ K.clockVarCount = 0 ∧
    (∀ d, constVal d K = some k) ∧ P op'

theorem RPos.move {x e k} (h : RPos x e k) (hne : e ≠ .clock x) :
    Moves e x k (fun op => ∃ b, op = .add b) := by
  induction h with
  | clock => exact absurd rfl hne
  | @addR e k c h ih =>
    intro op
    by_cases he : e = .clock x
    · obtain ⟨_, rfl⟩ := h.isClock he
      subst he
      exact ⟨int c, .add false, by simp [moveClockAndVars, cloneExpr, clockVarCount, bind, Except.bind], rfl, by
        intro d; simp [constVal], false, rfl⟩
    · obtain ⟨K, op', hm, h0, hc, b, rfl⟩ := ih he (.add false)
      refine ⟨add K (int c), .add b, ?_, by simp [clockVarCount, h0], ?_, b, rfl⟩
      · have : cloneExpr e (int c) none = .ok none := by
          cases h with
          | clock => exact absurd rfl he
          | _ => rfl
        simp [moveClockAndVars, h.count, this, hm, bind, Except.bind]
      · intro d; simp [constVal, hc d]
  | @addL e k c h ih =>
    intro op
    by_cases he : e = .clock x
    · obtain ⟨_, rfl⟩ := h.isClock he
      subst he
      exact ⟨int c, .add true, by simp [moveClockAndVars, cloneExpr, clockVarCount, bind, Except.bind], rfl, by
        intro d; simp [constVal], true, rfl⟩
    · obtain ⟨K, op', hm, h0, hc, b, rfl⟩ := ih he (.add true)
      refine ⟨add (int c) K, .add b, ?_, by simp [clockVarCount, h0], ?_, b, rfl⟩
      · have : cloneExpr e (int c) none = .ok none := by
          cases h with
          | clock => exact absurd rfl he
          | _ => rfl
        simp [moveClockAndVars, h.count, this, hm, bind, Except.bind, clockVarCount]
      · intro d; simp [constVal, hc d]

/-- A chain of additions minus a constant. -/
theorem RPos.move_sub {x e k c} (h : RPos x e k) (hne : e ≠ .clock x) :
    Moves (dif e (int c)) x (k - c) (fun op => ∃ b, op = .add b) := by
  intro op
  obtain ⟨K, op', hm, h0, hc, b, rfl⟩ := h.move hne (.dif false)
  refine ⟨dif K (int c), .add b, ?_, by simp [clockVarCount, h0], ?_, b, rfl⟩
  · have : cloneExpr e (int c) none = .ok none := by
      cases h with
      | clock => exact absurd rfl hne
      | _ => rfl
    simp [moveClockAndVars, h.count, this, hm, bind, Except.bind]
  · intro d; simp [constVal, hc d]

theorem RNeg.cloneExpr {x e k} (h : RNeg x e k) (c : Arith) : Arith.cloneExpr e c none = .ok none := by
  cases h <;> rfl

theorem RNeg.move {x e k} (h : RNeg x e k) : Moves e x k (fun op => op = .dif true) := by
  induction h with
  | @base c =>
    intro op
    exact ⟨int c, .dif true, by simp [moveClockAndVars, Arith.cloneExpr, clockVarCount, bind, Except.bind],
      rfl, by intro d; simp [constVal], rfl⟩
  | @addR e k c h ih =>
    intro op
    obtain ⟨K, op', hm, h0, hc, rfl⟩ := ih (.add false)
    refine ⟨add K (int c), .dif true, ?_, by simp [clockVarCount, h0], ?_, rfl⟩
    · simp [moveClockAndVars, h.count, h.cloneExpr, hm, bind, Except.bind]
    · intro d; simp [constVal, hc d]
  | @addL e k c h ih =>
    intro op
    obtain ⟨K, op', hm, h0, hc, rfl⟩ := ih (.add true)
    refine ⟨add (int c) K, .dif true, ?_, by simp [clockVarCount, h0], ?_, rfl⟩
    · simp [moveClockAndVars, h.count, h.cloneExpr, hm, bind, Except.bind, clockVarCount]
    · intro d; simp [constVal, hc d]
  | @subR e k c h ih =>
    intro op
    obtain ⟨K, op', hm, h0, hc, rfl⟩ := ih (.dif false)
    refine ⟨dif K (int c), .dif true, ?_, by simp [clockVarCount, h0], ?_, rfl⟩
    · simp [moveClockAndVars, h.count, h.cloneExpr, hm, bind, Except.bind]
    · intro d; simp [constVal, hc d]

/-- The simplification of an expression with one clock. -/
theorem simplify_one {e K : Arith} {x : Nat} {op : Op} (hc : e.clockVarCount = 1)
    (hm : e.moveClockAndVars .none = .ok (K, some (clock x, op))) (h0 : K.clockVarCount = 0) :
    e.simplify = (rebuildStep (clock x, op) K >>= fun out => foldLoop (out.size + 1) out) := by
  have : extractLoop 2 e .none = .ok (K, [(clock x, op)]) := by
    simp [extractLoop, hm, move_const K _ h0, bind, Except.bind]
  simp only [simplify, hc, Nat.reduceAdd, this, bind, Except.bind, rebuild]

/-- The simplification of an expression with two clocks. -/
theorem simplify_two {e e1 K : Arith} {x y : Arith} {op op' : Op} (hc : e.clockVarCount = 2)
    (hm : e.moveClockAndVars .none = .ok (e1, some (x, op))) (hm1 : e1.moveClockAndVars op = .ok (K, some (y, op')))
    (h0 : K.clockVarCount = 0) :
    e.simplify = (rebuildStep (y, op') K >>= fun out => rebuildStep (x, op) out >>= fun out => foldLoop (out.size + 1) out) := by
  have : extractLoop 3 e .none = .ok (K, [(x, op), (y, op')]) := by
    simp [extractLoop, hm, hm1, move_const K _ h0, bind, Except.bind]
  simp only [simplify, hc, Nat.reduceAdd, this, bind, Except.bind, rebuild]
  cases rebuildStep (y, op') K <;> rfl

theorem foldLoop_succ (n : Nat) (e : Arith) : foldLoop (n + 1) e =
    (simplifyHelper e >>= fun p => if p.2 then foldLoop n p.1 else .ok p.1) := rfl

theorem fold_addR {x : Nat} {K : Arith} {k : Int} (h0 : K.clockVarCount = 0)
    (hk : ∀ d, constVal d K = some k) (n : Nat) :
    OkOrOvf (foldLoop (n + 2) (add (clock x) K)) (· = add (clock x) (int k)) := by
  rw [foldLoop_succ]
  refine OkOrOvf.bind (P := fun p => p.1 = add (clock x) (int k)) ?_ ?_
  · refine (simplifyHelper_const ⟨[], []⟩ K k h0 (hk _)).bind fun q hq => ?_
    obtain ⟨q1, q2⟩ := q; cases hq; exact .ok rfl
  · rintro ⟨p1, p2⟩ rfl
    cases p2
    · exact .ok rfl
    · exact .ok rfl

theorem fold_addL {x : Nat} {K : Arith} {k : Int} (h0 : K.clockVarCount = 0)
    (hk : ∀ d, constVal d K = some k) (n : Nat) :
    OkOrOvf (foldLoop (n + 2) (add K (clock x))) (· = add (int k) (clock x)) := by
  rw [foldLoop_succ]
  refine OkOrOvf.bind (P := fun p => p.1 = add (int k) (clock x)) ?_ ?_
  · refine (simplifyHelper_const ⟨[], []⟩ K k h0 (hk _)).bind fun q hq => ?_
    obtain ⟨q1, q2⟩ := q; cases hq; exact .ok rfl
  · rintro ⟨p1, p2⟩ rfl
    cases p2
    · exact .ok rfl
    · exact .ok rfl

theorem fold_difL {x : Nat} {K : Arith} {k : Int} (h0 : K.clockVarCount = 0)
    (hk : ∀ d, constVal d K = some k) (n : Nat) :
    OkOrOvf (foldLoop (n + 2) (dif K (clock x))) (· = dif (int k) (clock x)) := by
  rw [foldLoop_succ]
  refine OkOrOvf.bind (P := fun p => p.1 = dif (int k) (clock x)) ?_ ?_
  · refine (simplifyHelper_const ⟨[], []⟩ K k h0 (hk _)).bind fun q hq => ?_
    obtain ⟨q1, q2⟩ := q; cases hq; exact .ok rfl
  · rintro ⟨p1, p2⟩ rfl
    cases p2
    · exact .ok rfl
    · exact .ok rfl

/-- Folding the constants of an expression all of whose other parts are folded already. -/
theorem fold_hole {K : Arith} {k : Int} {C : Arith → Arith} (h0 : K.clockVarCount = 0) (hk : ∀ d, constVal d K = some k)
    (h1 : simplifyHelper (C K) = (simplifyHelper K >>= fun q => .ok (C q.1, q.2)) ∨
      simplifyHelper (C K) = (simplifyHelper K >>= fun q => .ok (C q.1, q.2 || false)))
    (h2 : simplifyHelper (C (int k)) = .ok (C (int k), false)) (n : Nat) :
    OkOrOvf (foldLoop (n + 2) (C K)) (· = C (int k)) := by
  rw [foldLoop_succ]
  refine OkOrOvf.bind (P := fun p => p.1 = C (int k)) ?_ ?_
  · rcases h1 with h1 | h1 <;> rw [h1] <;>
    · refine (simplifyHelper_const ⟨[], []⟩ K k h0 (hk _)).bind fun q hq => ?_
      obtain ⟨q1, q2⟩ := q; cases hq; exact .ok rfl
  · rintro ⟨p1, p2⟩ rfl
    cases p2
    · exact .ok rfl
    · rw [if_pos rfl, foldLoop_succ, h2]
      exact .ok rfl

theorem size_pos (e : Arith) : 0 < e.size := by cases e <;> simp [size]

end Arith

open Arith

/-- What one side of a comparison stands for. -/
inductive Lin where
  | const (k : Int)
  | pos (x : Nat) (k : Int)
  | neg (x : Nat) (k : Int)
  | diff (x y : Nat) (k : Int)

/-- The value of a side. -/
noncomputable def Lin.val (v : Val) : Lin → ℝ
  | .const k => k
  | .pos x k => v x + k
  | .neg x k => k - v x
  | .diff x y k => v x - v y + k

/-- The clocks of a side are real clocks below `n`. -/
def Lin.InDim (n : Nat) : Lin → Prop
  | .const _ => True
  | .pos x _ | .neg x _ => 0 < x ∧ x < n
  | .diff x y _ => (0 < x ∧ x < n) ∧ (0 < y ∧ y < n)

/-- The shapes of simplified sides. -/
def Lin.Rep (e : Arith) : Lin → Prop
  | .const k => e = .int k
  | .pos x k => (e = .clock x ∧ k = 0) ∨ e = .add (.clock x) (.int k) ∨ e = .add (.int k) (.clock x)
      ∨ ∃ c, e = .dif (.clock x) (.int c) ∧ k = -c
  | .neg x k => e = .dif (.int k) (.clock x)
  | .diff x y k => (e = .dif (.clock x) (.clock y) ∧ k = 0) ∨ e = .add (.clock x) (.dif (.int k) (.clock y)) ∨
      e = .add (.dif (.int k) (.clock y)) (.clock x) ∨ (∃ c, e = .dif (.clock x) (.dif (.int c) (.clock y)) ∧ k = -c) ∨
      e = .dif (.add (.int k) (.clock x)) (.clock y)

theorem simplify_moves_add {e : Arith} {x : Nat} {k : Int} (hc : e.clockVarCount = 1)
    (h : Moves e x k (fun op => ∃ b, op = .add b)) : OkOrOvf e.simplify (Lin.Rep · (.pos x k)) := by
  obtain ⟨K, op, hm, h0, hk, b, rfl⟩ := h .none
  rw [simplify_one hc hm h0]
  cases b
  · simp only [rebuildStep, aAdd]
    split
    · next hK =>
      subst hK
      have : k = 0 := by simpa [constVal] using (hk ⟨[], []⟩).symm
      exact .ok (.inl ⟨rfl, this⟩)
    · rw [if_neg (by simp)]
      have hs := size_pos K
      obtain ⟨m, hm⟩ : ∃ m, (add (clock x) K).size + 1 = m + 2 := ⟨K.size + 1, by simp [size]; omega⟩
      refine OkOrOvf.bind (P := (· = add (clock x) K)) (.ok rfl) ?_
      rintro _ rfl
      rw [hm]
      exact (fold_addR h0 hk m).mono fun _ h => .inr (.inl h)
  · simp only [rebuildStep, aAdd]
    rw [if_neg (by simp)]
    split
    · next hK =>
      subst hK
      have : k = 0 := by simpa [constVal] using (hk ⟨[], []⟩).symm
      exact .ok (.inl ⟨rfl, this⟩)
    · have hs := size_pos K
      obtain ⟨m, hm⟩ : ∃ m, (add K (clock x)).size + 1 = m + 2 := ⟨K.size + 1, by simp [size]⟩
      refine OkOrOvf.bind (P := (· = add K (clock x))) (.inl ⟨_, ?_, rfl⟩) ?_
      · cases K <;> rfl
      · rintro _ rfl
        rw [hm]
        exact (fold_addL h0 hk m).mono fun _ h => .inr (.inr (.inl h))

theorem simplify_moves_neg {e : Arith} {x : Nat} {k : Int} (hc : e.clockVarCount = 1)
    (h : Moves e x k (fun op => op = .dif true)) : OkOrOvf e.simplify (Lin.Rep · (.neg x k)) := by
  obtain ⟨K, op, hm, h0, hk, rfl⟩ := h .none
  rw [simplify_one hc hm h0]
  simp only [rebuildStep, aDif]
  rw [if_neg (by simp)]
  obtain ⟨m, hm⟩ : ∃ m, (dif K (clock x)).size + 1 = m + 2 := ⟨K.size + 1, by simp [size]⟩
  refine OkOrOvf.bind (P := (· = dif K (clock x))) (.inl ⟨_, ?_, rfl⟩) ?_
  · cases K <;> rfl
  · rintro _ rfl
    rw [hm]
    exact (fold_difL h0 hk m).mono fun _ h => h

theorem simplify_RPos {x e k} (h : RPos x e k) : OkOrOvf e.simplify (Lin.Rep · (.pos x k)) := by
  by_cases he : e = .clock x
  · obtain ⟨_, rfl⟩ := h.isClock he
    subst he
    exact .ok (.inl ⟨rfl, rfl⟩)
  · exact simplify_moves_add h.count (h.move he)

/-- One side of a comparison stands for `L`: in meaning and in what the code makes of it. -/
structure SideLin (d : Decls) (e : Arith) (L : Lin) : Prop where
  val : ∀ v, value d v e = some (L.val v)
  code : OkOrOvf (do (← e.replaceVars d).simplify) (Lin.Rep · L)
  dim : ∀ n, d.InDim n → e.InDim n → L.InDim n

theorem lookup_mem {α β : Type} [BEq α] [LawfulBEq α] : ∀ {l : List (α × β)} {a : α} {b : β},
    l.lookup a = some b → (a, b) ∈ l
  | [], _, _, h => by simp at h
  | (a', b') :: l, a, b, h => by
    rw [List.lookup_cons] at h
    split at h
    · next he => simp only [beq_iff_eq] at he; cases h; subst he; exact .head _
    · exact .tail _ (lookup_mem h)

theorem value_int (d : Decls) (v : Val) (c : Int) : value d v (.int c) = some (c : ℝ) := rfl

theorem value_dif (d : Decls) (v : Val) {l r : Arith} {a b : ℝ} (hl : value d v l = some a)
    (hr : value d v r = some b) : value d v (.dif l r) = some (a - b) := by
  simp [value, hl, hr]

theorem IsClock.replaceVars {d e x} (h : IsClock d e x) : e.replaceVars d = .ok (.clock x) := by
  rcases h with rfl | ⟨n, rfl, hn⟩
  · rfl
  · simp [Arith.replaceVars, hn]

theorem IsClock.value {d e x} (h : IsClock d e x) (v : Val) : value d v e = some (v x) := by
  rcases h with rfl | ⟨n, rfl, hn⟩
  · rfl
  · simp [Reveaal.value, hn]

theorem IsClock.inDim {d e x n} (h : IsClock d e x) (hd : d.InDim n) (he : e.InDim n) :
    0 < x ∧ x < n := by
  rcases h with rfl | ⟨m, rfl, hm⟩
  · exact he
  · exact hd _ (lookup_mem hm)

theorem SideLin.const {d e} (h : (constVal d e).isSome) : ∃ k, SideLin d e (.const k) := by
  obtain ⟨k, hk⟩ := Option.isSome_iff_exists.mp h
  refine ⟨k, fun v => value_const d v e k hk, ?_, fun _ _ _ => trivial⟩
  refine (replaceVars_const d e k hk).bind ?_
  rintro _ rfl
  exact .ok rfl

/-- What name resolution makes of a chain of additions. -/
theorem PosChain.lin {d e} (h : PosChain d e) : ∃ x, ∃ k : Int, (∀ v, value d v e = some (v x + (k : ℝ))) ∧
    OkOrOvf (e.replaceVars d) (RPos x · k) ∧ ∀ n, d.InDim n → e.InDim n → 0 < x ∧ x < n := by
  induction h with
  | @clock e x h =>
    refine ⟨x, 0, fun v => by simp [h.value], ?_, fun n hd he => h.inDim hd he⟩
    rw [h.replaceVars]; exact .ok .clock
  | @addR e k h hk ih =>
    obtain ⟨c, hc⟩ := Option.isSome_iff_exists.mp hk
    obtain ⟨x, s, hv, hr, hd⟩ := ih
    refine ⟨x, s + c, fun v => ?_, ?_, fun n h1 h2 => hd n h1 h2.1⟩
    · simp [Reveaal.value, hv, value_const d v k c hc]; ring
    · refine hr.bind fun e' he' => (replaceVars_const d k c hc).bind ?_
      rintro _ rfl
      obtain ⟨e'', h1, h2⟩ := aAdd_RPos he' c
      exact .inl ⟨e'', h1, h2⟩
  | @addL e k h hk ih =>
    obtain ⟨c, hc⟩ := Option.isSome_iff_exists.mp hk
    obtain ⟨x, s, hv, hr, hd⟩ := ih
    refine ⟨x, c + s, fun v => ?_, ?_, fun n h1 h2 => hd n h1 h2.2⟩
    · simp [Reveaal.value, hv, value_const d v k c hc]; ring
    · refine (replaceVars_const d k c hc).bind ?_
      rintro _ rfl
      refine hr.bind fun e' he' => ?_
      obtain ⟨e'', h1, h2⟩ := aAdd_RPos' he' c
      exact .inl ⟨e'', h1, h2⟩

theorem NegChain.lin {d e} (h : NegChain d e) : ∃ x, ∃ k : Int, (∀ v, value d v e = some ((k : ℝ) - v x)) ∧
    OkOrOvf (e.replaceVars d) (RNeg x · k) ∧ ∀ n, d.InDim n → e.InDim n → 0 < x ∧ x < n := by
  induction h with
  | @base e x k h hk =>
    obtain ⟨c, hc⟩ := Option.isSome_iff_exists.mp hk
    refine ⟨x, c, fun v => ?_, ?_, fun n hd he => h.inDim hd he.2⟩
    · simp [Reveaal.value, h.value, value_const d v k c hc]
    · simp only [Arith.replaceVars, h.replaceVars]
      refine (replaceVars_const d k c hc).bind ?_
      rintro _ rfl
      exact .ok .base
  | @addR e k h hk ih =>
    obtain ⟨c, hc⟩ := Option.isSome_iff_exists.mp hk
    obtain ⟨x, s, hv, hr, hd⟩ := ih
    refine ⟨x, s + c, fun v => ?_, ?_, fun n h1 h2 => hd n h1 h2.1⟩
    · simp [Reveaal.value, hv, value_const d v k c hc]; ring
    · refine hr.bind fun e' he' => (replaceVars_const d k c hc).bind ?_
      rintro _ rfl
      obtain ⟨e'', h1, h2⟩ := aAdd_RNeg he' c
      exact .inl ⟨e'', h1, h2⟩
  | @addL e k h hk ih =>
    obtain ⟨c, hc⟩ := Option.isSome_iff_exists.mp hk
    obtain ⟨x, s, hv, hr, hd⟩ := ih
    refine ⟨x, c + s, fun v => ?_, ?_, fun n h1 h2 => hd n h1 h2.2⟩
    · simp [Reveaal.value, hv, value_const d v k c hc]; ring
    · refine (replaceVars_const d k c hc).bind ?_
      rintro _ rfl
      refine hr.bind fun e' he' => ?_
      obtain ⟨e'', h1, h2⟩ := aAdd_RNeg' he' c
      exact .inl ⟨e'', h1, h2⟩
  | @subR e k h hk ih =>
    obtain ⟨c, hc⟩ := Option.isSome_iff_exists.mp hk
    obtain ⟨x, s, hv, hr, hd⟩ := ih
    refine ⟨x, s - c, fun v => ?_, ?_, fun n h1 h2 => hd n h1 h2.1⟩
    · simp [Reveaal.value, hv, value_const d v k c hc]; ring
    · refine hr.bind fun e' he' => (replaceVars_const d k c hc).bind ?_
      rintro _ rfl
      obtain ⟨e'', h1, h2⟩ := aDif_RNeg he' c
      exact .inl ⟨e'', h1, h2⟩

/-- What name resolution makes of one clock counted positively. -/
theorem PosSide.lin {d e} (h : PosSide d e) : ∃ x, ∃ k : Int, (∀ v, value d v e = some (v x + (k : ℝ))) ∧
    OkOrOvf (e.replaceVars d) (fun e' => RPos x e' k ∨ ∃ e'' m s, e' = .dif e'' (.int m) ∧ m ≠ 0 ∧ RPos x e'' s ∧ k = s - m) ∧
      ∀ n, d.InDim n → e.InDim n → 0 < x ∧ x < n := by
  cases h with
  | chain h =>
    obtain ⟨x, k, hv, hr, hd⟩ := h.lin
    exact ⟨x, k, hv, hr.mono fun e' he' => .inl he', hd⟩
  | @subR e c h hk =>
    obtain ⟨m, hm⟩ := Option.isSome_iff_exists.mp hk
    obtain ⟨x, k, hv, hr, hd⟩ := h.lin
    refine ⟨x, k - m, fun v => ?_, ?_, fun n h1 h2 => hd n h1 h2.1⟩
    · simp [Reveaal.value, hv, value_const d v c m hm]; ring
    · refine hr.bind fun e' he' => (replaceVars_const d c m hm).bind ?_
      rintro _ rfl
      by_cases h0 : m = 0
      · subst h0
        exact .inl ⟨e', by simp [aDif], .inl (by simpa using he')⟩
      · refine .inl ⟨.dif e' (.int m), ?_, .inr ⟨e', m, k, rfl, h0, he', rfl⟩⟩
        simp only [aDif]
        rw [if_neg (by simpa using h0)]
        cases he' <;> rfl

theorem SideLin.pos {d e} (h : PosSide d e) : ∃ x k, SideLin d e (.pos x k) := by
  obtain ⟨x, k, hv, hr, hd⟩ := h.lin
  refine ⟨x, k, hv, hr.bind ?_, hd⟩
  rintro e' (he' | ⟨e'', m, s, rfl, h0, he', rfl⟩)
  · exact simplify_RPos he'
  · by_cases hc : e'' = .clock x
    · obtain ⟨_, rfl⟩ := he'.isClock hc
      subst hc
      have : (Arith.dif (.clock x) (.int m)).simplify =
        (rebuildStep (clock x, .dif false) (.int m) >>= fun out => foldLoop (out.size + 1) out) :=
        simplify_one rfl rfl rfl
      rw [this]
      refine .inl ⟨.dif (.clock x) (.int m), ?_, .inr (.inr (.inr ⟨m, rfl, by simp⟩))⟩
      simp [rebuildStep, aDif, h0, foldLoop, simplifyHelper, bind, Except.bind]
    · refine simplify_moves_add ?_ (he'.move_sub hc)
      simp [clockVarCount, he'.count]

theorem SideLin.neg {d e} (h : NegChain d e) : ∃ x k, SideLin d e (.neg x k) := by
  obtain ⟨x, k, hv, hr, hd⟩ := h.lin
  exact ⟨x, k, hv, hr.bind fun e' he' => simplify_moves_neg he'.count he'.move, hd⟩

theorem fold_addDif {x y : Nat} {K : Arith} {k : Int} (h0 : K.clockVarCount = 0) (hk : ∀ d, constVal d K = some k) :
    OkOrOvf (foldLoop ((add (clock x) (dif K (clock y))).size + 1) (add (clock x) (dif K (clock y))))
      (· = add (clock x) (dif (int k) (clock y))) := by
  obtain ⟨m, hm⟩ : ∃ m, (add (clock x) (dif K (clock y))).size + 1 = m + 2 := ⟨K.size + 3, by simp [size]; omega⟩
  rw [hm]
  refine fold_hole (C := fun K => add (clock x) (dif K (clock y))) h0 hk (.inr ?_) rfl m
  simp only [simplifyHelper]
  cases simplifyHelper K with
  | error _ => rfl
  | ok q => rcases q with ⟨q1, q2⟩; cases q1 <;> rfl

theorem fold_difAdd {x y : Nat} {K : Arith} {k : Int} (h0 : K.clockVarCount = 0) (hk : ∀ d, constVal d K = some k) :
    OkOrOvf (foldLoop ((add (dif K (clock y)) (clock x)).size + 1) (add (dif K (clock y)) (clock x)))
      (· = add (dif (int k) (clock y)) (clock x)) := by
  obtain ⟨m, hm⟩ : ∃ m, (add (dif K (clock y)) (clock x)).size + 1 = m + 2 := ⟨K.size + 3, by simp [size]⟩
  rw [hm]
  refine fold_hole (C := fun K => add (dif K (clock y)) (clock x)) h0 hk (.inr ?_) rfl m
  simp only [simplifyHelper]
  cases simplifyHelper K with
  | error _ => rfl
  | ok q => rcases q with ⟨q1, q2⟩; cases q1 <;> cases q2 <;> rfl

theorem fold_sumSub {x y : Nat} {K : Arith} {k : Int} (h0 : K.clockVarCount = 0) (hk : ∀ d, constVal d K = some k) :
    OkOrOvf (foldLoop ((dif (add K (clock x)) (clock y)).size + 1) (dif (add K (clock x)) (clock y)))
      (· = dif (add (int k) (clock x)) (clock y)) := by
  obtain ⟨m, hm⟩ : ∃ m, (dif (add K (clock x)) (clock y)).size + 1 = m + 2 := ⟨K.size + 3, by simp [size]⟩
  rw [hm]
  refine fold_hole (C := fun K => dif (add K (clock x)) (clock y)) h0 hk (.inr ?_) rfl m
  simp only [simplifyHelper]
  cases simplifyHelper K with
  | error _ => rfl
  | ok q => rcases q with ⟨q1, q2⟩; cases q1 <;> cases q2 <;> rfl

/-- `P - y`, if the clock of `P` is taken out of a sum. -/
theorem simplify_posSub {e : Arith} {x y : Nat} {k : Int} (hc : e.clockVarCount = 1) (hn : ∀ c, cloneExpr e c none = .ok none)
    (h : Moves e x k (fun op => ∃ b, op = .add b)) :
    OkOrOvf (dif e (clock y)).simplify (Lin.Rep · (.diff x y k)) := by
  obtain ⟨K, op, hm, h0, hk, b, rfl⟩ := h (.dif false)
  rw [simplify_two (e1 := dif K (clock y)) (K := K) (x := clock x) (y := clock y) (op := .add b) (op' := .dif true)
    (by simp [clockVarCount, hc]) (by simp [moveClockAndVars, hc, hn, hm, bind, Except.bind])
    (by simp [moveClockAndVars, h0, clockVarCount, cloneExpr, bind, Except.bind]) h0]
  have e1 : rebuildStep (clock y, .dif true) K = .ok (dif K (clock y)) := by
    simp only [rebuildStep, aDif]
    rw [if_neg (by simp)]
  rw [e1]
  cases b
  · exact (fold_addDif h0 hk).mono fun _ h => .inr (.inl h)
  · exact (fold_difAdd h0 hk).mono fun _ h => .inr (.inr (.inl h))

theorem SideLin.diff {d e} (h : DiffSide d e) : ∃ x y k, SideLin d e (.diff x y k) := by
  cases h with
  | @posSub l r y hl hr =>
    obtain ⟨x, k, hv, hc, hd⟩ := hl.lin
    refine ⟨x, y, k, fun v => ?_, ?_, fun n h1 h2 => ⟨hd n h1 h2.1, hr.inDim h1 h2.2⟩⟩
    · simp [Reveaal.value, hv, hr.value, Lin.val]; ring
    simp only [Arith.replaceVars, hr.replaceVars, bind_assoc]
    refine hc.bind ?_
    intro e' he'
    have e1 : aDif e' (.clock y) = .ok (.dif e' (.clock y)) := by
      simp only [aDif]
      rw [if_neg (by simp)]
    show OkOrOvf (aDif e' (.clock y) >>= fun e => e.simplify) _
    rw [e1]
    rcases he' with he' | ⟨e'', m, s, rfl, h0, he', rfl⟩
    · by_cases hx : e' = .clock x
      · obtain ⟨_, rfl⟩ := he'.isClock hx
        subst hx
        exact .ok (.inl ⟨rfl, rfl⟩)
      · refine simplify_posSub he'.count (fun c => ?_) (he'.move hx)
        cases he' with
        | clock => exact absurd rfl hx
        | _ => rfl
    · by_cases hx : e'' = .clock x
      · obtain ⟨_, rfl⟩ := he'.isClock hx
        subst hx
        refine .ok (.inr (.inr (.inr (.inl ⟨m, rfl, by simp⟩))))
      · exact simplify_posSub (by simp [clockVarCount, he'.count]) (fun _ => rfl) (he'.move_sub hx)
  | @posNeg l r x hl hr =>
    obtain ⟨y, k, hv, hc, hd⟩ := hr.lin
    refine ⟨x, y, k, fun v => ?_, ?_, fun n h1 h2 => ⟨hl.inDim h1 h2.1, hd n h1 h2.2⟩⟩
    · simp [Reveaal.value, hv, hl.value, Lin.val]; ring
    simp only [Arith.replaceVars, hl.replaceVars, bind_assoc]
    refine hc.bind ?_
    intro e' he'
    have e1 : aAdd (.clock x) e' = .ok (.add (.clock x) e') := by
      simp only [aAdd]
      rw [if_neg (he'.ne_int 0), if_neg (by simp)]
    show OkOrOvf (aAdd (.clock x) e' >>= fun e => e.simplify) _
    rw [e1]
    obtain ⟨K, op, hm, h0, hk, rfl⟩ := he'.move (.add false)
    show OkOrOvf (Arith.add (.clock x) e').simplify _
    rw [simplify_two (e1 := e') (K := K) (x := .clock x) (y := .clock y) (op := .add false) (op' := .dif true)
      (by simp [clockVarCount, he'.count]) (by simp [moveClockAndVars, clockVarCount, cloneExpr, bind, Except.bind]) hm h0]
    have e2 : rebuildStep (.clock y, .dif true) K = .ok (.dif K (.clock y)) := by
      simp only [rebuildStep, aDif]
      rw [if_neg (by simp)]
    rw [e2]
    exact (fold_addDif h0 hk).mono fun _ h => .inr (.inl h)
  | @negPos l r x hl hr =>
    obtain ⟨y, k, hv, hc, hd⟩ := hl.lin
    refine ⟨x, y, k, fun v => ?_, ?_, fun n h1 h2 => ⟨hr.inDim h1 h2.2, hd n h1 h2.1⟩⟩
    · simp [Reveaal.value, hv, hr.value, Lin.val]; ring
    simp only [Arith.replaceVars, hr.replaceVars, bind_assoc]
    refine hc.bind ?_
    intro e' he'
    have e1 : aAdd e' (.clock x) = .ok (.add e' (.clock x)) := by
      simp only [aAdd]
      rw [if_neg (by simp), if_neg (he'.ne_int 0)]
    show OkOrOvf (aAdd e' (.clock x) >>= fun e => e.simplify) _
    rw [e1]
    obtain ⟨K, op, hm, h0, hk, rfl⟩ := he'.move (.add false)
    show OkOrOvf (Arith.add e' (.clock x)).simplify _
    rw [simplify_two (e1 := .add K (.clock x)) (K := K) (x := .clock y) (y := .clock x) (op := .dif true) (op' := .add true)
      (by simp [clockVarCount, he'.count]) (by simp [moveClockAndVars, he'.count, he'.cloneExpr, hm, bind, Except.bind])
      (by simp [moveClockAndVars, h0, clockVarCount, cloneExpr, bind, Except.bind]) h0]
    by_cases hK : K = .int 0
    · subst hK
      have : k = 0 := by simpa [constVal] using (hk ⟨[], []⟩).symm
      exact .ok (.inl ⟨rfl, this⟩)
    · have e2 : rebuildStep (.clock x, .add true) K = .ok (.add K (.clock x)) := by
        simp only [rebuildStep, aAdd]
        rw [if_neg (by simp), if_neg hK]
      rw [e2]
      exact (fold_sumSub h0 hk).mono fun _ h => .inr (.inr (.inr (.inr h)))

/-! ### The constraint extracted from a comparison -/

/-- The pairs of sides that make a clock constraint. -/
def Lin.Compat : Lin → Lin → Prop
  | .pos _ _, .const _ | .const _, .pos _ _ | .neg _ _, .const _ | .const _, .neg _ _
  | .pos _ _, .pos _ _ | .neg _ _, .neg _ _ | .diff _ _ _, .const _ | .const _, .diff _ _ _ => True
  | _, _ => False

/-- What is read off a simplified side with one clock. -/
theorem Rep.one {d : Decls} {e : Arith} {x : Nat} {k : Int} {b : Bool}
    (h : Lin.Rep e (if b then .neg x k else .pos x k)) : e.clockVarCount = 1 ∧
    OkOrOvf (e.getConst d) (· = k) ∧ getClockVal e 1 false = .ok (⟨x, b⟩, none) := by
  cases b
  · simp only [Bool.false_eq_true, ↓reduceIte] at h
    rcases h with ⟨rfl, rfl⟩ | rfl | rfl | ⟨c, rfl, rfl⟩
    · exact ⟨rfl, .ok rfl, rfl⟩
    · exact ⟨rfl, (chk_ovf _).mono fun _ h => by simp [h], rfl⟩
    · exact ⟨rfl, (chk_ovf _).mono fun _ h => by simp [h], rfl⟩
    · exact ⟨rfl, (chk_ovf _).mono fun _ h => by simp [h], rfl⟩
  · simp only [↓reduceIte] at h
    cases h
    exact ⟨rfl, (chk_ovf _).mono fun _ h => by simp [h], rfl⟩

/-- What is read off a simplified side with two clocks. -/
theorem Rep.two {d : Decls} {e : Arith} {x y : Nat} {k : Int} (h : Lin.Rep e (.diff x y k)) : e.clockVarCount = 2 ∧
    OkOrOvf (e.getConst d) (· = k) ∧ (getClockVal e 2 false = .ok (⟨x, false⟩, some ⟨y, true⟩) ∨
      getClockVal e 2 false = .ok (⟨y, true⟩, some ⟨x, false⟩)) := by
  have c2 : ∀ {a : Res Int} {m : Int} {f : Int → Res Int}, OkOrOvf a (· = m) → OkOrOvf (f m) (· = k) →
      OkOrOvf (a >>= f) (· = k) := fun h1 h2 => h1.bind (by rintro _ rfl; exact h2)
  rcases h with ⟨rfl, rfl⟩ | rfl | rfl | ⟨c, rfl, rfl⟩ | rfl
  · exact ⟨rfl, .ok rfl, .inl rfl⟩
  · exact ⟨rfl, c2 (m := 0) (.ok rfl) (c2 (m := k) ((chk_ovf _).mono fun _ h => by simp [h])
      ((chk_ovf _).mono fun _ h => by simp [h])), .inl rfl⟩
  · exact ⟨rfl, c2 (m := k) ((chk_ovf _).mono fun _ h => by simp [h]) ((chk_ovf _).mono fun _ h => by simp [h]), .inl rfl⟩
  · exact ⟨rfl, c2 (m := 0) (.ok rfl) (c2 (m := c) ((chk_ovf _).mono fun _ h => by simp [h])
      ((chk_ovf _).mono fun _ h => by simp [h])), .inl rfl⟩
  · exact ⟨rfl, c2 (m := k) ((chk_ovf _).mono fun _ h => by simp [h]) ((chk_ovf _).mono fun _ h => by simp [h]), .inr rfl⟩

theorem getIndices_lin {d : Decls} {l r : Arith} {L R : Lin} (hl : SideLin d l L)
    (hr : SideLin d r R) (hc : Lin.Compat L R) :
    OkOrOvf (getIndices d l r) (fun p =>
      (∀ v : Val, v 0 = 0 → v p.1 - v p.2.1 - (p.2.2 : ℝ) = L.val v - R.val v) ∧
      ∀ n, 0 < n → d.InDim n → l.InDim n → r.InDim n → p.1 < n ∧ p.2.1 < n) := by
  have key : ∀ (lc rc : Res Int) (a b : Int) (f : Int → Res (Nat × Nat × Int)) (g : Nat × Nat)
      (P : Nat × Nat × Int → Prop), OkOrOvf lc (· = a) → OkOrOvf rc (· = b) →
      (f (b - a) = .ok (g.1, g.2, b - a)) → P (g.1, g.2, b - a) →
      OkOrOvf (do let x ← lc; let y ← rc; let c ← chk (y - x); f c) P := by
    intro lc rc a b f g P h1 h2 h3 h4
    refine h1.bind ?_
    rintro _ rfl
    refine h2.bind ?_
    rintro _ rfl
    refine (chk_ovf _).bind ?_
    rintro _ rfl
    exact .inl ⟨_, h3, h4⟩
  have e1 : getIndices d l r = ((do (← l.replaceVars d).simplify) >>= fun l' =>
      ((do (← r.replaceVars d).simplify) >>= fun r' => simplifiedIndices d l' r')) := by
    simp only [getIndices, bind_assoc]
  rw [e1]
  refine hl.code.bind fun l' hl' => hr.code.bind fun r' hr' => ?_
  unfold simplifiedIndices
  have dl := hl.dim
  have dr := hr.dim
  cases L with
  | const a =>
    cases hl'
    cases R with
    | const b => exact hc.elim
    | pos x k =>
      obtain ⟨h1, h2, h3⟩ := Rep.one (d := d) (b := false) hr'
      simp only [h1, clockVarCount, Nat.zero_add, Nat.one_ne_zero, if_false, gt_iff_lt, h3]
      refine key _ _ a k _ (0, x) _ (.ok rfl) h2 rfl ⟨fun v hv => ?_, fun n hn h4 h5 h6 => ⟨hn, (dr n h4 h6).2⟩⟩
      simp [Lin.val, hv]; ring
    | neg x k =>
      obtain ⟨h1, h2, h3⟩ := Rep.one (d := d) (b := true) hr'
      simp only [h1, clockVarCount, Nat.zero_add, Nat.one_ne_zero, if_false, gt_iff_lt, h3]
      refine key _ _ a k _ (x, 0) _ (.ok rfl) h2 rfl ⟨fun v hv => ?_, fun n hn h4 h5 h6 => ⟨(dr n h4 h6).2, hn⟩⟩
      simp [Lin.val, hv]; ring
    | diff x y k =>
      obtain ⟨h1, h2, h3⟩ := Rep.two (d := d) hr'
      simp only [h1, clockVarCount, Nat.zero_add, OfNat.ofNat_ne_zero, if_false, gt_iff_lt, Nat.lt_irrefl]
      refine key _ _ a k _ (y, x) _ (.ok rfl) h2 ?_
        ⟨fun v hv => ?_, fun n hn h4 h5 h6 => ⟨(dr n h4 h6).2.2, (dr n h4 h6).1.2⟩⟩
      · rcases h3 with h3 | h3 <;> rw [h3] <;> rfl
      · simp [Lin.val]; ring
  | pos x k =>
    obtain ⟨h1, h2, h3⟩ := Rep.one (d := d) (b := false) hl'
    cases R with
    | const b =>
      cases hr'
      simp only [h1, clockVarCount, Nat.add_zero, Nat.one_ne_zero, if_false, gt_iff_lt, h3]
      refine key _ _ k b _ (x, 0) _ h2 (.ok rfl) rfl ⟨fun v hv => ?_, fun n hn h4 h5 h6 => ⟨(dl n h4 h5).2, hn⟩⟩
      simp [Lin.val, hv]; ring
    | pos y m =>
      obtain ⟨g1, g2, g3⟩ := Rep.one (d := d) (b := false) hr'
      simp only [h1, g1, Nat.reduceAdd, OfNat.ofNat_ne_zero, if_false, gt_iff_lt, Nat.lt_irrefl, h3, g3]
      refine key _ _ k m _ (x, y) _ h2 g2 rfl ⟨fun v hv => ?_, fun n hn h4 h5 h6 => ⟨(dl n h4 h5).2, (dr n h4 h6).2⟩⟩
      simp [Lin.val]; ring
    | neg y m => exact hc.elim
    | diff y z m => exact hc.elim
  | neg x k =>
    obtain ⟨h1, h2, h3⟩ := Rep.one (d := d) (b := true) hl'
    cases R with
    | const b =>
      cases hr'
      simp only [h1, clockVarCount, Nat.add_zero, Nat.one_ne_zero, if_false, gt_iff_lt, h3]
      refine key _ _ k b _ (0, x) _ h2 (.ok rfl) rfl ⟨fun v hv => ?_, fun n hn h4 h5 h6 => ⟨hn, (dl n h4 h5).2⟩⟩
      simp [Lin.val, hv]; ring
    | neg y m =>
      obtain ⟨g1, g2, g3⟩ := Rep.one (d := d) (b := true) hr'
      simp only [h1, g1, Nat.reduceAdd, OfNat.ofNat_ne_zero, if_false, gt_iff_lt, Nat.lt_irrefl, h3, g3]
      refine key _ _ k m _ (y, x) _ h2 g2 rfl ⟨fun v hv => ?_, fun n hn h4 h5 h6 => ⟨(dr n h4 h6).2, (dl n h4 h5).2⟩⟩
      simp [Lin.val]; ring
    | pos y m => exact hc.elim
    | diff y z m => exact hc.elim
  | diff x y k =>
    cases R with
    | const b =>
      cases hr'
      obtain ⟨h1, h2, h3⟩ := Rep.two (d := d) hl'
      simp only [h1, clockVarCount, Nat.add_zero, OfNat.ofNat_ne_zero, if_false, gt_iff_lt, Nat.lt_irrefl]
      refine key _ _ k b _ (x, y) _ h2 (.ok rfl) ?_
        ⟨fun v hv => ?_, fun n hn h4 h5 h6 => ⟨(dl n h4 h5).1.2, (dl n h4 h5).2.2⟩⟩
      · rcases h3 with h3 | h3 <;> rw [h3] <;> rfl
      · simp [Lin.val]; ring
    | _ => exact hc.elim

/-- Sides in the fragment stand for linear forms that make a clock constraint. -/
theorem GoodSides.lin {d l r} (h : GoodSides d l r) :
    ∃ L R, SideLin d l L ∧ SideLin d r R ∧ Lin.Compat L R := by
  cases h with
  | posConst h1 h2 =>
    obtain ⟨x, k, h⟩ := SideLin.pos h1
    obtain ⟨k', h'⟩ := SideLin.const h2
    exact ⟨_, _, h, h', trivial⟩
  | constPos h1 h2 =>
    obtain ⟨x, k, h⟩ := SideLin.pos h2
    obtain ⟨k', h'⟩ := SideLin.const h1
    exact ⟨_, _, h', h, trivial⟩
  | negConst h1 h2 =>
    obtain ⟨x, k, h⟩ := SideLin.neg h1
    obtain ⟨k', h'⟩ := SideLin.const h2
    exact ⟨_, _, h, h', trivial⟩
  | constNeg h1 h2 =>
    obtain ⟨x, k, h⟩ := SideLin.neg h2
    obtain ⟨k', h'⟩ := SideLin.const h1
    exact ⟨_, _, h', h, trivial⟩
  | posPos h1 h2 =>
    obtain ⟨x, k, h⟩ := SideLin.pos h1
    obtain ⟨x', k', h'⟩ := SideLin.pos h2
    exact ⟨_, _, h, h', trivial⟩
  | negNeg h1 h2 =>
    obtain ⟨x, k, h⟩ := SideLin.neg h1
    obtain ⟨x', k', h'⟩ := SideLin.neg h2
    exact ⟨_, _, h, h', trivial⟩
  | diffConst h1 h2 =>
    obtain ⟨x, y, k, h⟩ := SideLin.diff h1
    obtain ⟨k', h'⟩ := SideLin.const h2
    exact ⟨_, _, h, h', trivial⟩
  | constDiff h1 h2 =>
    obtain ⟨x, y, k, h⟩ := SideLin.diff h2
    obtain ⟨k', h'⟩ := SideLin.const h1
    exact ⟨_, _, h', h, trivial⟩

theorem Lin.Compat.symm {L R : Lin} (h : Lin.Compat L R) : Lin.Compat R L := by
  cases L <;> cases R <;> first | exact h.elim | trivial

end Reveaal
