import Verif.Spec.Bounds
import Verif.Lemmas.Run
import Verif.Props.C02

/-! # Bounds and the valuations they do not distinguish -/

namespace Reveaal
open ZoneLib Arith

theorem Bounds.Weaker.refl (b : Bounds) : b.Weaker b := fun _ m h => ⟨m, h, le_refl _⟩

theorem Bounds.Weaker.equiv {b b' : Bounds} (h : b.Weaker b') {v w : Val} (he : b.Equiv v w) :
    b'.Equiv v w := by
  intro i
  refine (he i).imp id fun hb m hm => ?_
  obtain ⟨k, hk, hmk⟩ := h i m hm
  obtain ⟨h1, h2⟩ := hb k hk
  have : (m : ℝ) ≤ k := by exact_mod_cast hmk
  exact ⟨lt_of_le_of_lt this h1, lt_of_le_of_lt this h2⟩

theorem Bounds.Covers.mono {b b' : Bounds} {n : Nat} {S : Set Val} (h : b.Weaker b') (hc : b'.Covers n S) :
    b.Covers n S := fun v w hv hw he => hc v w hv hw (h.equiv he)

theorem Bounds.Covers.inter {b : Bounds} {n : Nat} {S T : Set Val} (hS : b.Covers n S) (hT : b.Covers n T) :
    b.Covers n (S ∩ T) := fun v w hv hw he h => ⟨hS v w hv hw he h.1, hT v w hv hw he h.2⟩

theorem Bounds.Covers.union {b : Bounds} {n : Nat} {S T : Set Val} (hS : b.Covers n S) (hT : b.Covers n T) :
    b.Covers n (S ∪ T) := fun v w hv hw he h => h.imp (hS v w hv hw he) (hT v w hv hw he)

theorem Bounds.weaker_add_left (a b : Bounds) : (Bounds.add a b).Weaker a := by
  intro i m hm
  unfold Bounds.add
  rw [hm]
  cases b i with
  | none => exact ⟨m, rfl, le_refl _⟩
  | some k => exact ⟨max m k, rfl, le_max_left _ _⟩

theorem Bounds.weaker_add_right (a b : Bounds) : (Bounds.add a b).Weaker b := by
  intro i m hm
  unfold Bounds.add
  rw [hm]
  cases a i with
  | none => exact ⟨m, rfl, le_refl _⟩
  | some k => exact ⟨max k m, rfl, le_max_right _ _⟩

theorem Bounds.Weaker.trans {a b c : Bounds} (h1 : a.Weaker b) (h2 : b.Weaker c) : a.Weaker c := by
  intro i m hm
  obtain ⟨k, hk, h3⟩ := h2 i m hm
  obtain ⟨k', hk', h4⟩ := h1 i k hk
  exact ⟨k', hk', h3.trans h4⟩

theorem Bounds.Weaker.add {a a' b b' : Bounds} (h1 : a.Weaker a') (h2 : b.Weaker b') :
    (Bounds.add a b).Weaker (Bounds.add a' b') := by
  intro i m hm
  unfold Bounds.add at hm
  cases ha : a' i with
  | none =>
    rw [ha] at hm
    exact ((Bounds.weaker_add_right a b).trans h2) i m (by cases hb : b' i <;> rw [hb] at hm <;> exact hm)
  | some k =>
    cases hb : b' i with
    | none =>
      rw [ha, hb] at hm
      exact ((Bounds.weaker_add_left a b).trans h1) i m (by rw [ha]; exact hm)
    | some k' =>
      rw [ha, hb] at hm
      cases hm
      rcases le_total k k' with h | h
      · rw [max_eq_right h]; exact ((Bounds.weaker_add_right a b).trans h2) i k' hb
      · rw [max_eq_left h]; exact ((Bounds.weaker_add_left a b).trans h1) i k ha

/-! ## The constants a component reports -/

theorem foldl_max_ge (f : Arith × Arith → Int) : ∀ (l : List (Arith × Arith)) (acc : Int),
    acc ≤ l.foldl (fun acc p => if acc < f p then f p else acc) acc ∧
    ∀ p ∈ l, f p ≤ l.foldl (fun acc p => if acc < f p then f p else acc) acc := by
  intro l
  induction l with
  | nil => intro acc; exact ⟨le_refl _, by simp⟩
  | cons q l ih =>
    intro acc
    rw [List.foldl_cons]
    obtain ⟨h1, h2⟩ := ih (if acc < f q then f q else acc)
    have hq : acc ≤ (if acc < f q then f q else acc) ∧ f q ≤ (if acc < f q then f q else acc) := by
      split <;> constructor <;> omega
    refine ⟨hq.1.trans h1, fun p hp => ?_⟩
    rcases List.mem_cons.1 hp with rfl | hp
    · exact hq.2.trans h1
    · exact h2 p hp

theorem getMaxConstant_ge {g : BoolE} {p : Arith × Arith} (h : p ∈ g.comparisons) (i : Nat) (n : String) :
    getConstant p.1 p.2 i n ≤ g.getMaxConstant i n :=
  (foldl_max_ge (fun p => getConstant p.1 p.2 i n) g.comparisons 0).2 p h

theorem maxOrZero_ge {l : List Int} {x : Int} (h : x ∈ l) : x ≤ Component.maxOrZero l := by
  have key : ∀ (l : List Int) (a : Int), a ≤ l.foldl max a ∧ ∀ x ∈ l, x ≤ l.foldl max a := by
    intro l
    induction l with
    | nil => intro a; exact ⟨le_refl _, by simp⟩
    | cons y l ih =>
      intro a
      rw [List.foldl_cons]
      obtain ⟨h1, h2⟩ := ih (max a y)
      refine ⟨(le_max_left _ _).trans h1, fun x hx => ?_⟩
      rcases List.mem_cons.1 hx with rfl | hx
      · exact (le_max_right _ _).trans h1
      · exact h2 x hx
  cases l with
  | nil => cases h
  | cons y l =>
    rcases List.mem_cons.1 h with rfl | h
    · exact (key l _).1
    · exact (key l _).2 x h

theorem clockBound_ge {c : Component} {g : BoolE} (h : c.HasExpr g) (n : String) (i : Nat) :
    g.getMaxConstant i n ≤ c.clockBound n i := by
  unfold Component.clockBound
  rcases h with ⟨e, he, hg⟩ | ⟨l, hl, hg⟩
  · refine le_trans (maxOrZero_ge ?_) (le_max_left _ _)
    exact List.mem_filterMap.2 ⟨e, he, by rw [hg]; rfl⟩
  · refine le_trans (maxOrZero_ge ?_) (le_max_right _ _)
    exact List.mem_filterMap.2 ⟨l, hl, by rw [hg]; rfl⟩

theorem maxBounds_ge {c : Component} {n : String} {i : Nat} (h : (n, i) ∈ c.decls.clocks) :
    ∃ m, c.maxBounds i = some m ∧ c.clockBound n i ≤ m := by
  unfold Component.maxBounds
  generalize c.decls.clocks = l at h
  have mono : ∀ (l : List (String × Nat)) (b : Bounds),
      (l.foldl (fun b p => Bounds.add b fun i => if i = p.2 then some (c.clockBound p.1 p.2) else none)
        b).Weaker b := by
    intro l
    induction l with
    | nil => intro b; exact .refl b
    | cons p l ih => intro b; exact (ih _).trans (Bounds.weaker_add_left _ _)
  generalize Bounds.new = b
  induction l generalizing b with
  | nil => cases h
  | cons p l ih =>
    rw [List.foldl_cons]
    rcases List.mem_cons.1 h with rfl | h
    · exact ((mono l _).trans (Bounds.weaker_add_right _ _)) i (c.clockBound n i) (by simp)
    · exact ih h _

theorem getConstant_compares {d : Decls} {l r : Arith} {n : String} {i : Nat} {k : Int}
    (h : ComparesClock d l r n i k) : getConstant l r i n = k := by
  rcases h with ⟨⟨_, h⟩, rfl⟩ | ⟨rfl, _, h⟩ <;> rcases h with rfl | ⟨rfl, _⟩ <;> simp [getConstant]

/-! ## Plain guards do not distinguish what the bounds do not distinguish -/

theorem simplify_clock (i : Nat) : simplify (.clock i) = .ok (.clock i) := rfl
theorem simplify_int (k : Int) : simplify (.int k) = .ok (.int k) := rfl

theorem isClock_replace {d : Decls} {e : Arith} {n : String} {i : Nat} (h : e.IsClock d n i) :
    e.replaceVars d = .ok (.clock i) := by
  rcases h.2 with rfl | ⟨rfl, h'⟩
  · rfl
  · rw [replaceVars, h']

theorem getIndices_compares {d : Decls} {l r : Arith} {n : String} {i : Nat} {k : Int}
    (h : ComparesClock d l r n i k) {x : Nat × Nat × Int} (hx : getIndices d l r = .ok x) :
    x = (i, 0, k) ∧ (l.IsClock d n i ∧ r = .int k) ∨ x = (0, i, -k) ∧ (l = .int k ∧ r.IsClock d n i) := by
  unfold getIndices at hx
  rcases h with ⟨h, rfl⟩ | ⟨rfl, h⟩
  · left
    rw [isClock_replace h] at hx
    simp only [replaceVars, simplify_clock, simplify_int, ok_bind] at hx
    simp only [simplifiedIndices, clockVarCount, getConst, ok_bind, sub_zero, getClockVal] at hx
    obtain ⟨c, hc, hx⟩ := bind_ok hx
    unfold chk at hc
    split at hc <;> cases hc
    simp at hx
    exact ⟨hx.symm, h, rfl⟩
  · right
    rw [isClock_replace h] at hx
    simp only [replaceVars, simplify_clock, simplify_int, ok_bind] at hx
    simp only [simplifiedIndices, clockVarCount, getConst, ok_bind, zero_sub, getClockVal] at hx
    obtain ⟨c, hc, hx⟩ := bind_ok hx
    unfold chk at hc
    split at hc <;> cases hc
    simp at hx
    exact ⟨hx.symm, rfl, h⟩

/-- On a clock whose bound is at least `k`, indistinguishable valuations compare alike with `k`. -/
theorem equiv_compare {b : Bounds} {v w : Val} {i : Nat} {k m : Int} (he : b.Equiv v w)
    (hb : b i = some m) (hk : k ≤ m) :
    v i = w i ∨ ((k : ℝ) < v i ∧ (k : ℝ) < w i) := by
  have hk : (k : ℝ) ≤ m := by exact_mod_cast hk
  exact (he i).imp id fun h => ⟨lt_of_le_of_lt hk (h m hb).1, lt_of_le_of_lt hk (h m hb).2⟩

/-- The bound of every clock is at least every literal the guard compares it with. -/
def Bounds.AtLeast (b : Bounds) (d : Decls) (g : BoolE) : Prop :=
  ∀ p ∈ g.comparisons, ∀ n i k, ComparesClock d p.1 p.2 n i k → ∃ m, b i = some m ∧ k ≤ m

theorem codeSet_covers {b : Bounds} {n : Nat} {d : Decls} : ∀ {g : BoolE}, g.Plain d → b.AtLeast d g →
    b.Covers n (codeSet d g) := by
  have cmp : ∀ (l r : Arith) (mk : Int → Ineq), (mk = .LE ∨ mk = .LS) →
      (∃ x i k, ComparesClock d l r x i k ∧ ∃ m, b i = some m ∧ k ≤ m) →
      b.Covers n (cmpSet d l r mk) := by
    rintro l r mk hmk ⟨x, i, k, hc, m, hb, hk⟩ v w hv hw he hm i' j' c hx
    have hm := hm i' j' c hx
    have hcmp := equiv_compare he hb hk
    rcases getIndices_compares hc hx with ⟨h, _⟩ | ⟨h, _⟩ <;> cases h <;>
      rcases hmk with rfl | rfl <;> simp only [Ineq.Sat, hv.1, hw.1] at * <;> push_cast at * <;>
      rcases hcmp with h | ⟨h1, h2⟩ <;> first | (rw [← h]; exact hm) | linarith
  have flip : ∀ (l r : Arith), (∃ x i k, ComparesClock d l r x i k ∧ ∃ m, b i = some m ∧ k ≤ m) →
      ∃ x i k, ComparesClock d r l x i k ∧ ∃ m, b i = some m ∧ k ≤ m := by
    rintro l r ⟨x, i, k, hc, h⟩
    exact ⟨x, i, k, hc.elim (fun h => .inr ⟨h.2, h.1⟩) (fun h => .inl ⟨h.2, h.1⟩), h⟩
  intro g
  have get : ∀ {l r : Arith}, (l, r) ∈ g.comparisons → g.Plain d → b.AtLeast d g →
      ∃ x i k, ComparesClock d l r x i k ∧ ∃ m, b i = some m ∧ k ≤ m := by
    intro l r hm hp hb
    obtain ⟨x, i, k, h⟩ := hp _ hm
    exact ⟨x, i, k, h, hb _ hm x i k h⟩
  induction g with
  | and l r ihl ihr =>
    intro hp hb
    refine Bounds.Covers.inter (ihl (fun hm hp hb => ?_) (fun p h => hp p (by simp [BoolE.comparisons, h]))
      (fun p h => hb p (by simp [BoolE.comparisons, h])))
      (ihr (fun hm hp hb => ?_) (fun p h => hp p (by simp [BoolE.comparisons, h]))
      (fun p h => hb p (by simp [BoolE.comparisons, h])))
    all_goals
      obtain ⟨x, i, k, h⟩ := hp _ hm
      exact ⟨x, i, k, h, hb _ hm x i k h⟩
  | or l r ihl ihr =>
    intro hp hb
    refine Bounds.Covers.union (ihl (fun hm hp hb => ?_) (fun p h => hp p (by simp [BoolE.comparisons, h]))
      (fun p h => hb p (by simp [BoolE.comparisons, h])))
      (ihr (fun hm hp hb => ?_) (fun p h => hp p (by simp [BoolE.comparisons, h]))
      (fun p h => hb p (by simp [BoolE.comparisons, h])))
    all_goals
      obtain ⟨x, i, k, h⟩ := hp _ hm
      exact ⟨x, i, k, h, hb _ hm x i k h⟩
  | le l r => exact fun hp hb => cmp l r _ (.inl rfl) (get (by simp [BoolE.comparisons]) hp hb)
  | ge l r => exact fun hp hb => cmp r l _ (.inl rfl) (flip _ _ (get (by simp [BoolE.comparisons]) hp hb))
  | lt l r => exact fun hp hb => cmp l r _ (.inr rfl) (get (by simp [BoolE.comparisons]) hp hb)
  | gt l r => exact fun hp hb => cmp r l _ (.inr rfl) (flip _ _ (get (by simp [BoolE.comparisons]) hp hb))
  | eq l r =>
    intro hp hb
    obtain ⟨x, i, k, hc, m, hb, hk⟩ := get (l := l) (r := r) (by simp [BoolE.comparisons]) hp hb
    intro v w hv hw he hm i' j' c hx
    have hm := hm i' j' c hx
    have hcmp := equiv_compare he hb hk
    rcases getIndices_compares hc hx with ⟨h, _⟩ | ⟨h, _⟩ <;> cases h <;>
      simp only [hv.1, hw.1] at * <;> push_cast at * <;>
      rcases hcmp with h | ⟨h1, h2⟩ <;> first | (rw [← h]; exact hm) | linarith
  | bool c => exact fun _ _ v w _ _ _ h => h

end Reveaal
