import Verif.Zones
import Mathlib.Data.Set.Finite.Basic
import Mathlib.Data.Set.Finite.Lattice
import Mathlib.Data.Set.Finite.Powerset
import Mathlib.Data.Finite.Prod
import Mathlib.Data.Fintype.Pi
import Mathlib.Algebra.Order.Archimedean.Real.Basic
import Mathlib.Algebra.Order.Floor.Ring
import Mathlib.Order.Interval.Finset.Basic
import Mathlib.Data.Int.Interval
import Mathlib.Algebra.Order.BigOperators.Group.List
import Mathlib.Tactic.Tauto

/-!
# Extrapolation with finitely many results

The extrapolation of `edbm` (maximal bounds) keeps only constants up to the bounds, so for given bounds it has
finitely many results.  This is not a law of `ZoneLib`; theorems about termination assume it.  Here every
implementation of `ZoneLib` is turned into one whose extrapolation has this property, so the assumption can be met.
-/

namespace Reveaal
open ZoneLib

/-- For given bounds there are only finitely many extrapolated sets of valuations. -/
def FiniteExtrapolation (F : Type) [ZoneLib F] : Prop :=
  ∀ b : Bounds, (Set.range fun z : F => den (extrapolate z b)).Finite

namespace Closure
variable {F : Type} [ZoneLib F]

/-- One clock: nothing is known of it without a bound, and above its bound only that. -/
def step (b : Bounds) (z : F) (i : Nat) : F :=
  match b i with
  | none => free z i
  | some m => append (constrain z i 0 (.LE m)) (constrain (free (constrain z 0 i (.LS (-m))) i) 0 i (.LS (-m)))

/-- All clocks, one after the other. -/
def close (z : F) (b : Bounds) : F := (List.range' 1 (dim F - 1)).foldl (step b) z

theorem mem_step (b : Bounds) (z : F) {i : Nat} (hi : 0 < i) (hn : i < dim F) (v : Val) :
    v ∈ den (step b z i) ↔ ∃ w ∈ den z, ∃ x : ℝ, 0 ≤ x ∧ v = assign w i x ∧
      (v i = w i ∨ ∀ m, b i = some m → (m : ℝ) < v i ∧ (m : ℝ) < w i) := by
  unfold step
  split
  · rename_i hb
    rw [den_free z i hi hn]
    constructor
    · rintro ⟨w, hw, x, hx, rfl⟩
      exact ⟨w, hw, x, hx, rfl, .inr fun m hm => by rw [hb] at hm; cases hm⟩
    · rintro ⟨w, hw, x, hx, rfl, _⟩; exact ⟨w, hw, x, hx, rfl⟩
  · rename_i m hb
    rw [den_append, den_constrain _ _ _ _ hn dim_pos, den_constrain _ _ _ _ dim_pos hn, den_free _ _ hi hn,
      den_constrain _ _ _ _ dim_pos hn]
    simp only [Set.mem_union, Set.mem_ofPred_eq, Ineq.Sat, Int.cast_neg]
    constructor
    · rintro (⟨hz, _⟩ | ⟨⟨w, ⟨hw, h1⟩, x, hx, rfl⟩, h2⟩)
      · exact ⟨v, hz, v i, (den_valid hz).2.1 i, (assign_self _ _).symm, .inl rfl⟩
      · refine ⟨w, hw, x, hx, rfl, .inr fun m' hm' => ?_⟩
        rw [hb] at hm'; cases hm'
        rw [(den_valid hw).1] at h1
        rw [assign_other _ _ (by omega), (den_valid hw).1] at h2
        constructor <;> linarith
    · rintro ⟨w, hw, x, hx, rfl, h⟩
      rcases h with h | h
      · have e : assign w i x = w := by rw [assign_same] at h; rw [h, assign_self]
        rw [e]
        by_cases hm : w i ≤ m
        · exact .inl ⟨hw, by rw [(den_valid hw).1]; linarith⟩
        · refine .inr ⟨⟨w, ⟨hw, ?_⟩, w i, (den_valid hw).2.1 i, (assign_self _ _).symm⟩, ?_⟩ <;>
          · rw [(den_valid hw).1]; linarith
      · obtain ⟨h1, h2⟩ := h m hb
        refine .inr ⟨⟨w, ⟨hw, by rw [(den_valid hw).1]; linarith⟩, x, hx, rfl⟩, ?_⟩
        rw [assign_other _ _ (by omega), (den_valid hw).1]; linarith

theorem mem_fold (b : Bounds) : ∀ (is : List Nat), is.Nodup → (∀ i ∈ is, 0 < i ∧ i < dim F) → ∀ (z : F) (v : Val),
    v ∈ den (is.foldl (step b) z) ↔ Valid (dim F) v ∧ ∃ w ∈ den z, b.Equiv v w ∧ ∀ i, i ∉ is → v i = w i
  | [], _, _, z, v => by
    constructor
    · intro h; exact ⟨den_valid h, v, h, Bounds.Equiv.refl _ _, fun _ _ => rfl⟩
    · rintro ⟨_, w, hw, _, h⟩
      have : v = w := funext fun i => h i (by simp)
      rw [this]; exact hw
  | i :: is, hnd, hd, z, v => by
    rw [List.foldl_cons, mem_fold b is (List.nodup_cons.1 hnd).2 (fun j hj => hd j (by simp [hj]))]
    obtain ⟨hi, hn⟩ := hd i (by simp)
    have hni := (List.nodup_cons.1 hnd).1
    constructor
    · rintro ⟨hv, u, hu, h1, h2⟩
      rw [mem_step b z hi hn] at hu
      obtain ⟨w, hw, x, hx, rfl, h3⟩ := hu
      refine ⟨hv, w, hw, fun k => ?_, fun k hk => ?_⟩
      · by_cases hk : k = i
        · subst hk
          rw [h2 k hni]; exact h3
        · have := h1 k; rwa [assign_other _ _ hk] at this
      · rw [h2 k (fun h => hk (by simp [h])), assign_other _ _ (fun h => hk (by simp [h]))]
    · rintro ⟨hv, w, hw, h1, h2⟩
      refine ⟨hv, assign w i (v i), ?_, fun k => ?_, fun k hk => ?_⟩
      · rw [mem_step b z hi hn]
        refine ⟨w, hw, v i, hv.2.1 i, rfl, ?_⟩
        rw [assign_same]; exact h1 i
      · by_cases hk : k = i
        · subst hk; left; rw [assign_same]
        · rw [assign_other _ _ hk]; exact h1 k
      · by_cases hki : k = i
        · subst hki; rw [assign_same]
        · rw [assign_other _ _ hki]; exact h2 k (by simp [hki, hk])

/-- The closure is the set of all valuations that the bounds do not tell from one of the set. -/
theorem mem_close (z : F) (b : Bounds) (v : Val) :
    v ∈ den (close z b) ↔ Valid (dim F) v ∧ ∃ w ∈ den z, b.Equiv v w := by
  unfold close
  rw [mem_fold b _ (List.nodup_range' ..) (fun i hi => by rw [List.mem_range'_1] at hi; omega)]
  refine and_congr_right fun hv => ?_
  constructor
  · rintro ⟨w, h1, h2, _⟩; exact ⟨w, h1, h2⟩
  · rintro ⟨w, h1, h2⟩
    refine ⟨w, h1, h2, fun i hi => ?_⟩
    rw [List.mem_range'_1] at hi
    by_cases h0 : i = 0
    · rw [h0, hv.1, (den_valid h1).1]
    · rw [hv.2.2 i (by omega), (den_valid h1).2.2 i (by omega)]

/-- Below or at its bound (the reference clock always is). -/
def Low (b : Bounds) (v : Val) (i : Nat) : Prop := i = 0 ∨ ∃ m, b i = some m ∧ v i ≤ (m : ℝ)

open Classical in
/-- Clocks above their bounds read 0. -/
noncomputable def cut (b : Bounds) (v : Val) : Val := fun i => if Low b v i then v i else 0

open Classical in
/-- What the bounds tell about a valuation. -/
noncomputable def ty (n : Nat) (b : Bounds) (v : Val) : Fin n → Fin n → ℤ × ℤ × Bool := fun i j =>
  (⌊cut b v i - cut b v j⌋, ⌈cut b v i - cut b v j⌉, decide (Low b v i))

theorem cut_valid {n : Nat} {b : Bounds} {v : Val} (h : Valid n v) : Valid n (cut b v) := by
  refine ⟨?_, fun i => ?_, fun i hi => ?_⟩ <;> unfold cut <;> split
  · exact h.1
  · rfl
  · exact h.2.1 i
  · exact le_refl _
  · exact h.2.2 i hi
  · rfl

theorem sat_of_type {x y : ℝ} (h1 : ⌊x⌋ = ⌊y⌋) (h2 : ⌈x⌉ = ⌈y⌉) (c : Ineq) (h : c.Sat x) : c.Sat y := by
  cases c with
  | LE c =>
    have h : x ≤ c := h
    have : y ≤ c := by rw [← Int.ceil_le, ← h2, Int.ceil_le]; exact h
    exact this
  | LS c =>
    have h : x < c := h
    have : y < c := by rw [← Int.floor_lt, ← h1, Int.floor_lt]; exact h
    exact this

/-- Freeing several clocks. -/
theorem mem_freeAll : ∀ (is : List Nat), (∀ i ∈ is, 0 < i ∧ i < dim F) → ∀ (z : F) (v : Val),
    v ∈ den (is.foldl free z) ↔ Valid (dim F) v ∧ ∃ w ∈ den z, ∀ i, i ∉ is → v i = w i
  | [], _, z, v => by
    constructor
    · intro h; exact ⟨den_valid h, v, h, fun _ _ => rfl⟩
    · rintro ⟨_, w, hw, h⟩
      have : v = w := funext fun i => h i (by simp)
      rw [this]; exact hw
  | i :: is, hd, z, v => by
    rw [List.foldl_cons, mem_freeAll is (fun j hj => hd j (by simp [hj]))]
    obtain ⟨hi, hn⟩ := hd i (by simp)
    refine and_congr_right fun hv => ?_
    rw [den_free z i hi hn]
    constructor
    · rintro ⟨_, ⟨w, hw, x, _, rfl⟩, h⟩
      refine ⟨w, hw, fun k hk => ?_⟩
      rw [h k (fun h => hk (by simp [h])), assign_other _ _ (fun h => hk (by simp [h]))]
    · rintro ⟨w, hw, h⟩
      refine ⟨assign w i (v i), ⟨w, hw, v i, hv.2.1 i, rfl⟩, fun k hk => ?_⟩
      by_cases hki : k = i
      · subst hki; rw [assign_same]
      · rw [assign_other _ _ hki]; exact h k (by simp [hki, hk])

/-- Above all bounds of the listed clocks. -/
def above (b : Bounds) (z : F) (i : Nat) : F :=
  match b i with
  | none => z
  | some m => constrain z 0 i (.LS (-m))

theorem mem_above (b : Bounds) : ∀ (is : List Nat), (∀ i ∈ is, i < dim F) → ∀ (z : F) (v : Val),
    v ∈ den (is.foldl (above b) z) ↔ v ∈ den z ∧ ∀ i ∈ is, ∀ m, b i = some m → (m : ℝ) < v i
  | [], _, z, v => by simp
  | i :: is, hd, z, v => by
    rw [List.foldl_cons, mem_above b is (fun j hj => hd j (by simp [hj]))]
    have key : v ∈ den (above b z i) ↔ v ∈ den z ∧ ∀ m, b i = some m → (m : ℝ) < v i := by
      unfold above
      split
      · rename_i hb; rw [hb]; simp
      · rename_i m hb
        rw [den_constrain _ _ _ _ dim_pos (hd i (by simp)), hb]
        simp only [Set.mem_ofPred_eq, Ineq.Sat, Int.cast_neg, Option.some.injEq, forall_eq']
        refine and_congr_right fun hv => ?_
        rw [(den_valid hv).1]
        constructor <;> intro h <;> linarith
    rw [key]
    simp only [List.mem_cons, forall_eq_or_imp]
    tauto

theorem close_type {z : F} {b : Bounds} {v u : Val} (hu : Valid (dim F) u) (ht : ty (dim F) b v = ty (dim F) b u)
    (hv : v ∈ den (close z b)) : u ∈ den (close z b) := by
  classical
  rw [mem_close] at hv ⊢
  obtain ⟨hv, w, hw, he⟩ := hv
  refine ⟨hu, ?_⟩
  have hlow : ∀ i, i < dim F → (Low b v i ↔ Low b u i) := by
    intro i hi
    have := congrFun (congrFun ht ⟨i, hi⟩) ⟨i, hi⟩
    simp only [ty, Prod.mk.injEq, decide_eq_decide] at this
    exact this.2.2
  let is := (List.range (dim F)).filter fun i => decide (¬ Low b v i)
  have his : ∀ i, i ∈ is ↔ i < dim F ∧ ¬ Low b v i := by intro i; simp [is]
  have hd : ∀ i ∈ is, 0 < i ∧ i < dim F := by
    intro i hi
    obtain ⟨h1, h2⟩ := (his i).1 hi
    refine ⟨?_, h1⟩
    rcases Nat.eq_zero_or_pos i with h | h
    · exact absurd (.inl h) h2
    · exact h
  let D : F := is.foldl free (is.foldl (above b) z)
  have mem_D : ∀ x, x ∈ den D ↔ Valid (dim F) x ∧ ∃ y ∈ den z,
      (∀ i ∈ is, ∀ m, b i = some m → (m : ℝ) < y i) ∧ ∀ i, i ∉ is → x i = y i := by
    intro x
    rw [mem_freeAll is hd]
    refine and_congr_right fun _ => ?_
    constructor
    · rintro ⟨y, h1, h2⟩
      rw [mem_above b is fun i hi => (hd i hi).2] at h1
      exact ⟨y, h1.1, h1.2, h2⟩
    · rintro ⟨y, h1, h2, h3⟩
      exact ⟨y, (mem_above b is (fun i hi => (hd i hi).2) _ _).2 ⟨h1, h2⟩, h3⟩
  have eqLow : ∀ i, i ∉ is → v i = w i := by
    intro i hi
    by_cases hn : i < dim F
    · have hl : Low b v i := by
        by_contra hc; exact hi ((his i).2 ⟨hn, hc⟩)
      rcases he i with h | h
      · exact h
      · rcases hl with rfl | ⟨m, h1, h2⟩
        · rw [hv.1, (den_valid hw).1]
        · exact absurd (h m h1).1 (not_lt.2 h2)
    · rw [hv.2.2 i (by omega), (den_valid hw).2.2 i (by omega)]
  have h1 : cut b v ∈ den D := by
    rw [mem_D]
    refine ⟨cut_valid hv, w, hw, fun i hi m hm => ?_, fun i hi => ?_⟩
    · have hnl := ((his i).1 hi).2
      have hv' : (m : ℝ) < v i := by
        by_contra hc; exact hnl (.inr ⟨m, hm, not_lt.1 hc⟩)
      rcases he i with h | h
      · rwa [← h]
      · exact (h m hm).2
    · rw [← eqLow i hi]
      unfold cut
      by_cases hn : i < dim F
      · rw [if_pos (by by_contra hc; exact hi ((his i).2 ⟨hn, hc⟩))]
      · rw [hv.2.2 i (by omega)]; simp
  have h2 : cut b u ∈ den D := by
    rw [← den_minimal D] at h1 ⊢
    obtain ⟨_, c, hc, hs⟩ := h1
    refine ⟨cut_valid hu, c, hc, fun k hk => ?_⟩
    obtain ⟨hki, hkj⟩ := minimal_inDim D c hc k hk
    have := congrFun (congrFun ht ⟨k.i, hki⟩) ⟨k.j, hkj⟩
    simp only [ty, Prod.mk.injEq] at this
    exact sat_of_type this.1 this.2.1 k.ineq (hs k hk)
  rw [mem_D] at h2
  obtain ⟨_, y, hy, h3, h4⟩ := h2
  refine ⟨y, hy, fun i => ?_⟩
  by_cases hi : i ∈ is
  · right
    intro m hm
    refine ⟨?_, h3 i hi m hm⟩
    by_contra hc
    exact ((his i).1 hi).2 ((hlow i (hd i hi).2).2 (.inr ⟨m, hm, not_lt.1 hc⟩))
  · left
    rw [← h4 i hi]
    unfold cut
    by_cases hn : i < dim F
    · rw [if_pos ((hlow i hn).1 (by by_contra hc; exact hi ((his i).2 ⟨hn, hc⟩)))]
    · rw [hu.2.2 i (by omega)]; simp

theorem types_finite (n : Nat) (b : Bounds) : (ty n b '' {v | Valid n v}).Finite := by
  let B : ℤ := ((List.range n).map fun i => max 0 ((b i).getD 0)).sum
  have hB : ∀ i, i < n → ∀ m, b i = some m → m ≤ B := by
    intro i hi m hm
    have h1 : max 0 ((b i).getD 0) ∈ (List.range n).map fun i => max 0 ((b i).getD 0) :=
      List.mem_map.2 ⟨i, List.mem_range.2 hi, rfl⟩
    have h2 := List.single_le_sum (l := (List.range n).map fun i => max 0 ((b i).getD 0))
      (by intro x hx; obtain ⟨j, _, rfl⟩ := List.mem_map.1 hx; exact le_max_left _ _) _ h1
    rw [hm] at h2
    exact le_trans (le_max_right _ _) h2
  have hB0 : (0 : ℤ) ≤ B := by
    apply List.sum_nonneg
    intro x hx
    obtain ⟨j, _, rfl⟩ := List.mem_map.1 hx
    exact le_max_left _ _
  have hcut : ∀ v, Valid n v → ∀ i, i < n → 0 ≤ cut b v i ∧ cut b v i ≤ B := by
    intro v hv i hi
    refine ⟨(cut_valid hv).2.1 i, ?_⟩
    unfold cut
    split
    · rename_i hl
      rcases hl with rfl | ⟨m, h1, h2⟩
      · rw [hv.1]; exact_mod_cast hB0
      · exact le_trans h2 (by exact_mod_cast hB i hi m h1)
    · exact_mod_cast hB0
  let S : Set (ℤ × ℤ × Bool) := Set.Icc (-B) B ×ˢ Set.Icc (-B) B ×ˢ Set.univ
  have hS : S.Finite := (Set.finite_Icc _ _).prod ((Set.finite_Icc _ _).prod Set.finite_univ)
  refine Set.Finite.subset (Set.Finite.pi' fun i : Fin n => Set.Finite.pi' fun j : Fin n => hS) ?_
  rintro _ ⟨v, hv, rfl⟩ i j
  obtain ⟨h1, h2⟩ := hcut v hv i i.2
  obtain ⟨h3, h4⟩ := hcut v hv j j.2
  refine ⟨⟨?_, ?_⟩, ⟨?_, ?_⟩, trivial⟩ <;> dsimp only [ty]
  · rw [Int.le_floor]; push_cast; linarith
  · rw [← Int.cast_le (R := ℝ)]; exact le_trans (Int.floor_le _) (by linarith)
  · rw [← Int.cast_le (R := ℝ)]; exact le_trans (by push_cast; linarith) (Int.le_ceil _)
  · rw [Int.ceil_le]; linarith

theorem close_finite (b : Bounds) : (Set.range fun z : F => den (close z b)).Finite := by
  refine Set.Finite.subset (((types_finite (dim F) b).finite_subsets).image
    fun X => {v | Valid (dim F) v ∧ ty (dim F) b v ∈ X}) ?_
  rintro _ ⟨z, rfl⟩
  refine ⟨ty (dim F) b '' den (close z b), ?_, ?_⟩
  · exact Set.image_mono fun v hv => den_valid hv
  · ext v
    constructor
    · rintro ⟨hv, u, hu, he⟩; exact close_type hv he hu
    · intro hv; exact ⟨den_valid hv, v, hv, rfl⟩

end Closure

/-- The library with the closure as extrapolation. -/
@[reducible] def closureLib {F : Type} (L : ZoneLib F) : ZoneLib F :=
  { L with
    extrapolate := Closure.close
    extrapolate_sup := fun z b v hv => (Closure.mem_close z b v).2 ⟨den_valid hv, v, hv, Bounds.Equiv.refl _ _⟩
    extrapolate_equiv := fun z b v hv => ((Closure.mem_close z b v).1 hv).2 }

theorem closureLib_finite {F : Type} (L : ZoneLib F) : @FiniteExtrapolation F (closureLib L) :=
  fun b => @Closure.close_finite F L b

end Reveaal
