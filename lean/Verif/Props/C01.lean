import Verif.Lemmas.Expr
import Verif.ZoneImpl

/-!
# C01: guard evaluation is exact

Full property: for every guard `g`, table `d` and set `z`, if `applyConstraints d g z = .ok z'`
then `den z' = {v ∈ den z | Holds d v g}`.  It is false of the code (`C01_violated_...`); it is
proved for the fragment `GoodGuard` of `Verif.Spec.Guard`.
-/

namespace Reveaal
open ZoneLib

variable {F : Type} [ZoneLib F]

theorem apply_of_empty {d : Decls} {g : BoolE} {z : F} (h : isEmpty z = true) :
    applyConstraints d g z = .ok z := by
  cases g <;> simp [applyConstraints, h]

/-- **C01** (partial): a guard of the fragment is accepted, and selects exactly the valuations that
satisfy it; the only other outcome is a panic for an `i32` overflow in its constants.  Missing:
guards outside the fragment, for which the property fails. -/
theorem C01_guard_exact_partial (d : Decls) (hd : d.InDim (dim F)) (g : BoolE) (hg : g.InDim (dim F))
    (good : GoodGuard d g) (z : F) :
    (∃ z', applyConstraints d g z = .ok z' ∧ den z' = {v | v ∈ den z ∧ Holds d v g}) ∨
      applyConstraints d g z = .error (.panic "arithmetic overflow") := by
  change OkOrOvf _ (fun z' => den z' = {v | v ∈ den z ∧ Holds d v g})
  have hempty : ∀ {g : BoolE} {z : F}, isEmpty z = true →
      OkOrOvf (applyConstraints d g z) (fun z' => den z' = {v | v ∈ den z ∧ Holds d v g}) := by
    intro g z hz
    rw [apply_of_empty hz]
    refine .ok ?_
    rw [ZoneLib.isEmpty_iff] at hz
    rw [hz]; ext v; simp
  have cmp : ∀ {l r : Arith}, GoodSides d l r → l.InDim (dim F) → r.InDim (dim F) →
      (∃ L R : Lin, (∀ v, value d v l = some (L.val v)) ∧ (∀ v, value d v r = some (R.val v)) ∧
      OkOrOvf (getIndices d l r) (fun p => (∀ v : Val, v 0 = 0 →
        v p.1 - v p.2.1 - (p.2.2 : ℝ) = L.val v - R.val v) ∧ p.1 < dim F ∧ p.2.1 < dim F) ∧
      OkOrOvf (getIndices d r l) (fun p => (∀ v : Val, v 0 = 0 →
        v p.1 - v p.2.1 - (p.2.2 : ℝ) = R.val v - L.val v) ∧ p.1 < dim F ∧ p.2.1 < dim F)) := by
    intro l r h h1 h2
    obtain ⟨L, R, hl, hr, hc⟩ := h.lin
    exact ⟨L, R, hl.val, hr.val,
      (getIndices_lin hl hr hc).mono fun p hp => ⟨hp.1, hp.2 _ dim_pos hd h1 h2⟩,
      (getIndices_lin hr hl hc.symm).mono fun p hp => ⟨hp.1, hp.2 _ dim_pos hd h2 h1⟩⟩
  induction g generalizing z with
  | and l r ihl ihr =>
    by_cases hz : isEmpty z = true
    · exact hempty hz
    · simp only [applyConstraints, if_neg hz]
      refine (ihl hg.1 good.1 z).bind fun z1 h1 => (ihr hg.2 good.2 z1).mono fun z2 h2 => ?_
      rw [h2, h1]; ext v
      simp only [Set.mem_ofPred_eq, Holds]; tauto
  | or l r ihl ihr =>
    by_cases hz : isEmpty z = true
    · exact hempty hz
    · simp only [applyConstraints, if_neg hz]
      refine (ihl hg.1 good.1 z).bind fun z1 h1 => (ihr hg.2 good.2 z).bind fun z2 h2 => .ok ?_
      rw [den_append, h2, h1]; ext v
      simp only [Set.mem_union, Set.mem_ofPred_eq, Holds]; tauto
  | le l r =>
    by_cases hz : isEmpty z = true
    · exact hempty hz
    · simp only [applyConstraints, if_neg hz]
      obtain ⟨L, R, hl, hr, h1, h2⟩ := cmp good hg.1 hg.2
      refine h1.bind fun p hp => .ok ?_
      obtain ⟨i, j, c⟩ := p
      rw [den_constrain _ _ _ _ hp.2.1 hp.2.2]; ext v
      simp only [Set.mem_ofPred_eq, Holds, hl, hr, Option.some.injEq, Ineq.Sat]
      refine and_congr_right fun hv => ?_
      have := hp.1 v (den_valid hv).1
      simp only at this
      constructor
      · intro h; exact ⟨_, _, rfl, rfl, by linarith⟩
      · rintro ⟨a, b, rfl, rfl, h⟩; linarith
  | ge l r =>
    by_cases hz : isEmpty z = true
    · exact hempty hz
    · simp only [applyConstraints, if_neg hz]
      obtain ⟨L, R, hl, hr, h1, h2⟩ := cmp good hg.1 hg.2
      refine h2.bind fun p hp => .ok ?_
      obtain ⟨i, j, c⟩ := p
      rw [den_constrain _ _ _ _ hp.2.1 hp.2.2]; ext v
      simp only [Set.mem_ofPred_eq, Holds, hl, hr, Option.some.injEq, Ineq.Sat]
      refine and_congr_right fun hv => ?_
      have := hp.1 v (den_valid hv).1
      simp only at this
      constructor
      · intro h; exact ⟨_, _, rfl, rfl, by linarith⟩
      · rintro ⟨a, b, rfl, rfl, h⟩; linarith
  | lt l r =>
    by_cases hz : isEmpty z = true
    · exact hempty hz
    · simp only [applyConstraints, if_neg hz]
      obtain ⟨L, R, hl, hr, h1, h2⟩ := cmp good hg.1 hg.2
      refine h1.bind fun p hp => .ok ?_
      obtain ⟨i, j, c⟩ := p
      rw [den_constrain _ _ _ _ hp.2.1 hp.2.2]; ext v
      simp only [Set.mem_ofPred_eq, Holds, hl, hr, Option.some.injEq, Ineq.Sat]
      refine and_congr_right fun hv => ?_
      have := hp.1 v (den_valid hv).1
      simp only at this
      constructor
      · intro h; exact ⟨_, _, rfl, rfl, by linarith⟩
      · rintro ⟨a, b, rfl, rfl, h⟩; linarith
  | gt l r =>
    by_cases hz : isEmpty z = true
    · exact hempty hz
    · simp only [applyConstraints, if_neg hz]
      obtain ⟨L, R, hl, hr, h1, h2⟩ := cmp good hg.1 hg.2
      refine h2.bind fun p hp => .ok ?_
      obtain ⟨i, j, c⟩ := p
      rw [den_constrain _ _ _ _ hp.2.1 hp.2.2]; ext v
      simp only [Set.mem_ofPred_eq, Holds, hl, hr, Option.some.injEq, Ineq.Sat]
      refine and_congr_right fun hv => ?_
      have := hp.1 v (den_valid hv).1
      simp only at this
      constructor
      · intro h; exact ⟨_, _, rfl, rfl, by linarith⟩
      · rintro ⟨a, b, rfl, rfl, h⟩; linarith
  | eq l r =>
    by_cases hz : isEmpty z = true
    · exact hempty hz
    · simp only [applyConstraints, if_neg hz]
      obtain ⟨L, R, hl, hr, h1, h2⟩ := cmp good hg.1 hg.2
      refine h1.bind fun p hp => ?_
      obtain ⟨i, j, c⟩ := p
      refine (chk_ovf _).bind fun c' hc' => .ok ?_
      subst hc'
      rw [den_constrain _ _ _ _ hp.2.2 hp.2.1, den_constrain _ _ _ _ hp.2.1 hp.2.2]; ext v
      simp only [Set.mem_ofPred_eq, Holds, hl, hr, Option.some.injEq, Ineq.Sat, Int.cast_neg]
      rw [and_assoc]
      refine and_congr_right fun hv => ?_
      have := hp.1 v (den_valid hv).1
      simp only at this
      constructor
      · rintro ⟨h, h'⟩; exact ⟨_, _, rfl, rfl, by linarith⟩
      · rintro ⟨a, b, rfl, rfl, h⟩; constructor <;> linarith
  | bool b =>
    by_cases hz : isEmpty z = true
    · exact hempty hz
    · simp only [applyConstraints, if_neg hz]
      cases b
      · refine .ok ?_; rw [den_empty]; ext v; simp [Holds]
      · refine .ok ?_; ext v; simp [Holds]

/-- The hypotheses are met by the guard `x <= 5 && (3 + y + n > 7 || y + 1 - x == 2 || n - y + x < 4)`. -/
example :
    let d : Decls := ⟨[("n", 2)], [("x", 1), ("y", 2)]⟩
    let g : BoolE := .and (.le (.var "x") (.int 5))
      (.or (.gt (.add (.add (.int 3) (.var "y")) (.var "n")) (.int 7)) (.or
        (.eq (.dif (.add (.var "y") (.int 1)) (.var "x")) (.int 2))
        (.lt (.add (.dif (.var "n") (.var "y")) (.var "x")) (.int 4))))
    d.InDim 3 ∧ g.InDim 3 ∧ GoodGuard d g := by
  intro d g
  have hx : IsClock d (.var "x") 1 := .inr ⟨"x", rfl, rfl⟩
  have hy : IsClock d (.var "y") 2 := .inr ⟨"y", rfl, rfl⟩
  refine ⟨by simp [d, Decls.ClocksIn], by simp [g, BoolE.ClocksIn, Arith.ClocksIn], ?_, ?_, ?_, ?_⟩
  · exact .posConst (.chain (.clock hx)) rfl
  · exact .posConst (.chain (.addR (.addL (.clock hy) rfl) rfl)) rfl
  · exact .diffConst (.posSub (.chain (.addR (.clock hy) rfl)) hx) rfl
  · exact .diffConst (.negPos (.base hy rfl) hx) rfl

/-! ## The property fails outside the fragment -/

theorem univ_nonempty : ¬ isEmpty (univ : F) = true := by
  rw [ZoneLib.isEmpty_iff, den_univ]
  intro h
  have : (fun _ => (0 : ℝ)) ∈ (∅ : Set Val) := h ▸ ⟨rfl, fun _ => le_refl _, fun _ _ => rfl⟩
  exact this

/-- The valuation in which clock 1 reads `a` and all others read 0. -/
noncomputable def oneClock (a : ℝ) : Val := fun i => if i = 1 then a else 0

theorem oneClock_valid {n : Nat} {a : ℝ} (hn : 1 < n) (ha : 0 ≤ a) : Valid n (oneClock a) := by
  refine ⟨by simp [oneClock], fun i => ?_, fun i hi => ?_⟩
  · unfold oneClock; split <;> simp [ha]
  · unfold oneClock; rw [if_neg (by omega)]

/-- A guard whose comparison is read as the constraint `x ≤ c`, applied to all valuations. -/
theorem apply_le_univ {d : Decls} {l r : Arith} {c : Int} (h : getIndices d l r = .ok (1, 0, c))
    (hdim : 1 < dim F) : ∃ z : F, applyConstraints d (.le l r) univ = .ok z ∧
      den z = {v | Valid (dim F) v ∧ v 1 ≤ c} := by
  refine ⟨constrain univ 1 0 (.LE c), ?_, ?_⟩
  · simp only [applyConstraints, if_neg univ_nonempty, h]; rfl
  · rw [den_constrain _ _ _ _ hdim dim_pos, den_univ]
    ext v
    simp only [Set.mem_ofPred_eq, Ineq.Sat]
    refine and_congr_right fun hv => ?_
    rw [hv.1]; simp

/-- **C01 is violated**: subtraction is re-associated.  `x - 3 - 2 <= 0` is accepted, but keeps only
the valuations with `x ≤ 1`: the valuation `x = 4` satisfies the guard and is dropped. -/
theorem C01_violated_subtraction (hdim : 1 < dim F) :
    let d : Decls := ⟨[], [("x", 1)]⟩
    let g : BoolE := .le (.dif (.dif (.var "x") (.int 3)) (.int 2)) (.int 0)
    ∃ z : F, applyConstraints d g univ = .ok z ∧
      Holds d (oneClock 4) g ∧ Valid (dim F) (oneClock 4) ∧ oneClock 4 ∉ den z := by
  intro d g
  obtain ⟨z, hz, hd⟩ := apply_le_univ (F := F) (d := d)
    (l := .dif (.dif (.var "x") (.int 3)) (.int 2)) (r := .int 0) (c := 1) (by decide) hdim
  refine ⟨z, hz, ?_, oneClock_valid hdim (by norm_num), ?_⟩
  · refine ⟨4 - 3 - 2, 0, ?_, ?_, by norm_num⟩
    · simp [value, d, oneClock]
    · simp [value]
  · rw [hd]; simp [oneClock]

/-- **C01 is violated**: a clock under a product.  `(x + 1) * 3 <= 10` is accepted and read as
`x + 3 ≤ 10`: the valuation `x = 4` does not satisfy the guard and is kept. -/
theorem C01_violated_product (hdim : 1 < dim F) :
    let d : Decls := ⟨[], [("x", 1)]⟩
    let g : BoolE := .le (.mul (.add (.var "x") (.int 1)) (.int 3)) (.int 10)
    ∃ z : F, applyConstraints d g univ = .ok z ∧
      ¬ Holds d (oneClock 4) g ∧ oneClock 4 ∈ den z := by
  intro d g
  obtain ⟨z, hz, hd⟩ := apply_le_univ (F := F) (d := d)
    (l := .mul (.add (.var "x") (.int 1)) (.int 3)) (r := .int 10) (c := 7) (by decide) hdim
  refine ⟨z, hz, ?_, ?_⟩
  · rintro ⟨a, b, ha, hb, hab⟩
    simp [value, d, oneClock] at ha hb
    subst ha hb; norm_num at hab
  · rw [hd]; exact ⟨oneClock_valid hdim (by norm_num), by simp [oneClock]; norm_num⟩

/-- **C01 is violated**: division by zero.  `x <= 5 / 0` is accepted and read as `x ≤ 0`. -/
theorem C01_violated_division_by_zero (hdim : 1 < dim F) :
    let d : Decls := ⟨[], [("x", 1)]⟩
    let g : BoolE := .le (.var "x") (.div (.int 5) (.int 0))
    ∃ z : F, applyConstraints d g univ = .ok z ∧
      (∀ v, value d v (.div (.int 5) (.int 0)) = none) ∧ oneClock 0 ∈ den z := by
  intro d g
  obtain ⟨z, hz, hd⟩ := apply_le_univ (F := F) (d := d)
    (l := .var "x") (r := .div (.int 5) (.int 0)) (c := 0) (by decide) hdim
  refine ⟨z, hz, ?_, ?_⟩
  · intro v; simp [value, constVal]
  · rw [hd]; exact ⟨oneClock_valid hdim le_rfl, by simp [oneClock]⟩

/-- **C01 is violated**: a difference that is subtracted is read as one that is added.  `3 - (y - x) <= 10` is accepted, but
read as `y - x <= 13`; it holds with `x` at 8 and `y` at 0, although 3 - (0 - 8) is 11. -/
theorem C01_violated_subtracted_difference (hdim : 2 < dim F) :
    let d : Decls := ⟨[], [("x", 1), ("y", 2)]⟩
    let g : BoolE := .le (.dif (.int 3) (.dif (.var "y") (.var "x"))) (.int 10)
    ∃ z : F, applyConstraints d g univ = .ok z ∧ ¬ Holds d (oneClock 8) g ∧ oneClock 8 ∈ den z := by
  intro d g
  have h : getIndices d (.dif (.int 3) (.dif (.var "y") (.var "x"))) (.int 10) = .ok (2, 1, 13) := by decide
  refine ⟨constrain univ 2 1 (.LE 13), ?_, ?_, ?_⟩
  · simp only [g, applyConstraints, if_neg univ_nonempty, h]; rfl
  · rintro ⟨a, b, ha, hb, hab⟩
    have e : d.clocks.lookup "y" = some 2 := rfl
    simp [value, e, oneClock] at ha hb
    simp [d] at ha
    subst ha hb; norm_num at hab
  · rw [den_constrain _ _ _ _ hdim (by omega), den_univ]
    refine ⟨oneClock_valid (by omega) (by norm_num), ?_⟩
    simp only [Ineq.Sat, oneClock]
    norm_num

end Reveaal
