import Verif.Zones
import Verif.ZoneFinite
import Mathlib.Order.CountableDenseLinearOrder
import Mathlib.Tactic.Linarith
import Mathlib.Tactic.Push

/-!
# Clock regions

Two valuations are alike up to `K` if they compare alike with the integers up to `K` on every clock, and their
differences compare alike with all integers on the clocks that are not above `K`.  There are finitely many classes of
alike valuations.  Sets that contain with a valuation all valuations like it are closed under the operations of the zone
library that look backwards.
-/

namespace Reveaal
open ZoneLib

/-- The valuations lie in the same region. -/
structure Alike (n : Nat) (K : ℤ) (v w : Val) : Prop where
  le : ∀ i, i < n → ∀ m : ℤ, m ≤ K → (v i ≤ m ↔ w i ≤ m)
  ge : ∀ i, i < n → ∀ m : ℤ, m ≤ K → ((m : ℝ) ≤ v i ↔ (m : ℝ) ≤ w i)
  diff : ∀ i j, i < n → j < n → v i ≤ K → v j ≤ K → ∀ m : ℤ, (v i - v j ≤ m ↔ w i - w j ≤ m)

/-- With a valuation the set contains all valuations of its region. -/
def RegionSet (n : Nat) (K : ℤ) (S : Set Val) : Prop :=
  ∀ v w, Valid n v → Valid n w → Alike n K v w → v ∈ S → w ∈ S

variable {n : Nat} {K : ℤ} {v w : Val}

theorem Alike.symm (h : Alike n K v w) : Alike n K w v :=
  ⟨fun i hi m hm => (h.le i hi m hm).symm, fun i hi m hm => (h.ge i hi m hm).symm,
    fun i j hi hj h1 h2 m => (h.diff i j hi hj ((h.le i hi K (le_refl _)).2 h1) ((h.le j hj K (le_refl _)).2 h2) m).symm⟩

theorem Alike.mono {K' : ℤ} (hK : K' ≤ K) (h : Alike n K v w) : Alike n K' v w := by
  have hr : (K' : ℝ) ≤ K := by exact_mod_cast hK
  exact ⟨fun i hi m hm => h.le i hi m (hm.trans hK), fun i hi m hm => h.ge i hi m (hm.trans hK),
    fun i j hi hj h1 h2 m => h.diff i j hi hj (h1.trans hr) (h2.trans hr) m⟩

theorem RegionSet.mono {K' : ℤ} {S : Set Val} (hK : K' ≤ K) (h : RegionSet n K' S) : RegionSet n K S :=
  fun v w hv hw ha => h v w hv hw (ha.mono hK)

/-- It is enough to compare the differences of clocks other than the reference clock. -/
theorem Alike.of_clocks (hv : Valid n v) (hw : Valid n w)
    (hle : ∀ i, 0 < i → i < n → ∀ m : ℤ, 0 ≤ m → m ≤ K → (v i ≤ m ↔ w i ≤ m))
    (hge : ∀ i, 0 < i → i < n → ∀ m : ℤ, 0 ≤ m → m ≤ K → ((m : ℝ) ≤ v i ↔ (m : ℝ) ≤ w i))
    (hdiff : ∀ i j, 0 < i → 0 < j → i < n → j < n → v i ≤ K → v j ≤ K → ∀ m : ℤ, (v i - v j ≤ m ↔ w i - w j ≤ m)) :
    Alike n K v w := by
  have hneg : ∀ {m : ℤ}, ¬ 0 ≤ m → (m : ℝ) < 0 := fun h => by exact_mod_cast not_le.1 h
  have hle' : ∀ i, i < n → ∀ m : ℤ, m ≤ K → (v i ≤ m ↔ w i ≤ m) := by
    intro i hi m hm
    rcases Nat.eq_zero_or_pos i with rfl | h0
    · rw [hv.1, hw.1]
    · by_cases h : 0 ≤ m
      · exact hle i h0 hi m h hm
      · have := hneg h
        have := hv.2.1 i
        have := hw.2.1 i
        constructor <;> intro <;> linarith
  have hge' : ∀ i, i < n → ∀ m : ℤ, m ≤ K → ((m : ℝ) ≤ v i ↔ (m : ℝ) ≤ w i) := by
    intro i hi m hm
    rcases Nat.eq_zero_or_pos i with rfl | h0
    · rw [hv.1, hw.1]
    · by_cases h : 0 ≤ m
      · exact hge i h0 hi m h hm
      · have := hneg h
        have := hv.2.1 i
        have := hw.2.1 i
        constructor <;> intro <;> linarith
  refine ⟨hle', hge', fun i j hi hj h1 h2 m => ?_⟩
  have h1' := (hle' i hi K (le_refl _)).1 h1
  have h2' := (hle' j hj K (le_refl _)).1 h2
  rcases Nat.eq_zero_or_pos j with rfl | hj0
  · rw [hv.1, hw.1, sub_zero, sub_zero]
    by_cases hm : m ≤ K
    · exact hle' i hi m hm
    · have : (K : ℝ) < m := by exact_mod_cast not_le.1 hm
      constructor <;> intro <;> linarith
  rcases Nat.eq_zero_or_pos i with rfl | hi0
  · rw [hv.1, hw.1, zero_sub, zero_sub]
    by_cases hm : -m ≤ K
    · have := hge' j hj (-m) hm
      push_cast at this
      constructor <;> intro h
      · have := this.1 (by linarith); linarith
      · have := this.2 (by linarith); linarith
    · have : (K : ℝ) < -m := by exact_mod_cast not_le.1 hm
      constructor <;> intro <;> linarith
  exact hdiff i j hi0 hj0 hi hj h1 h2 m

/-! ## Matching one more point -/

/-- Two finite families of points in the same order: whatever the place of a point in the first, there is a point in the
same place of the second. -/
theorem exists_same_place {ι : Type} (I : Finset ι) (a b : ι → ℝ)
    (h : ∀ i ∈ I, ∀ j ∈ I, a i ≤ a j ↔ b i ≤ b j) (d : ℝ) :
    ∃ d', ∀ i ∈ I, (a i ≤ d ↔ b i ≤ d') ∧ (d ≤ a i ↔ d' ≤ b i) := by
  classical
  by_cases hd : ∃ i ∈ I, a i = d
  · obtain ⟨i, hi, rfl⟩ := hd
    exact ⟨b i, fun j hj => ⟨h j hj i hi, h i hi j hj⟩⟩
  · push Not at hd
    obtain ⟨d', h1, h2⟩ := Order.exists_between_finsets ((I.filter fun i => a i < d).image b)
      ((I.filter fun i => d < a i).image b) (by
        intro x hx y hy
        obtain ⟨i, hi, rfl⟩ := Finset.mem_image.1 hx
        obtain ⟨j, hj, rfl⟩ := Finset.mem_image.1 hy
        obtain ⟨hi, hi'⟩ := Finset.mem_filter.1 hi
        obtain ⟨hj, hj'⟩ := Finset.mem_filter.1 hj
        exact not_le.1 fun hle => absurd ((h j hj i hi).2 hle) (by linarith))
    refine ⟨d', fun i hi => ?_⟩
    rcases lt_or_gt_of_ne (hd i hi) with hlt | hgt
    · have := h1 (b i) (Finset.mem_image_of_mem b (Finset.mem_filter.2 ⟨hi, hlt⟩))
      exact ⟨⟨fun _ => this.le, fun _ => hlt.le⟩, ⟨fun h => absurd h (by linarith), fun h => absurd h (by linarith)⟩⟩
    · have := h2 (b i) (Finset.mem_image_of_mem b (Finset.mem_filter.2 ⟨hi, hgt⟩))
      exact ⟨⟨fun h => absurd h (by linarith), fun h => absurd h (by linarith)⟩, ⟨fun _ => this.le, fun _ => hgt.le⟩⟩

/-! ## Time -/

/-- The delays `d` and `d'` lead from `v` and `w` to the same places: the integers up to `K` are reached by the clocks at
the same moments. -/
def SameDelay (n : Nat) (K : ℤ) (v w : Val) (d d' : ℝ) : Prop :=
  ∀ i, i < n → v i ≤ K → ∀ m : ℤ, 0 ≤ m → m ≤ K →
    (((m : ℝ) - v i ≤ d ↔ (m : ℝ) - w i ≤ d') ∧ (d ≤ (m : ℝ) - v i ↔ d' ≤ (m : ℝ) - w i))

theorem SameDelay.alike (h : Alike n K v w) (hv : Valid n v) (hw : Valid n w) {d d' : ℝ} (hd : 0 ≤ d) (hd' : 0 ≤ d')
    (hs : SameDelay n K v w d d') : Alike n K (delay n v d) (delay n w d') := by
  have val : ∀ (u : Val) (e : ℝ) i, 0 < i → i < n → delay n u e i = u i + e := by
    intro u e i h0 hi; unfold delay; rw [if_pos ⟨h0, hi⟩]
  have high : ∀ i, i < n → ¬ v i ≤ K → (K : ℝ) < w i := fun i hi hk =>
    not_le.1 fun hc => hk ((h.le i hi K (le_refl _)).2 hc)
  refine Alike.of_clocks (delay_valid hv hd) (delay_valid hw hd') ?_ ?_ ?_
  · intro i h0 hi m hm hmK
    rw [val _ _ i h0 hi, val _ _ i h0 hi]
    by_cases hk : v i ≤ K
    · have := (hs i hi hk m hm hmK).2
      constructor <;> intro hh
      · have := this.1 (by linarith); linarith
      · have := this.2 (by linarith); linarith
    · have h1 := high i hi hk
      have h2 := not_le.1 hk
      have h3 : (m : ℝ) ≤ K := by exact_mod_cast hmK
      constructor <;> intro <;> linarith
  · intro i h0 hi m hm hmK
    rw [val _ _ i h0 hi, val _ _ i h0 hi]
    by_cases hk : v i ≤ K
    · have := (hs i hi hk m hm hmK).1
      constructor <;> intro hh
      · have := this.1 (by linarith); linarith
      · have := this.2 (by linarith); linarith
    · have h1 := high i hi hk
      have h2 := not_le.1 hk
      have h3 : (m : ℝ) ≤ K := by exact_mod_cast hmK
      constructor <;> intro <;> linarith
  · intro i j hi0 hj0 hi hj h1 h2 m
    rw [val _ _ i hi0 hi] at h1 ⊢
    rw [val _ _ j hj0 hj] at h2 ⊢
    rw [val _ _ i hi0 hi, val _ _ j hj0 hj, add_sub_add_right_eq_sub, add_sub_add_right_eq_sub]
    exact h.diff i j hi hj (by linarith) (by linarith) m

/-- Every delay from `v` is matched by one from `w`, also relative to a matched pair of delays. -/
theorem Alike.exists_delay (h : Alike n K v w) (hv : Valid n v) (hw : Valid n w) (hn : 0 < n) (hK : 0 ≤ K)
    {e e' : ℝ} (he : SameDelay n K v w e e') {d : ℝ} (hd : 0 ≤ d) :
    ∃ d', 0 ≤ d' ∧ SameDelay n K v w d d' ∧ (e ≤ d ↔ e' ≤ d') ∧ (d ≤ e ↔ d' ≤ e') := by
  classical
  let I : Finset (Option (ℕ × ℤ)) := insert none
    ((((Finset.range n).filter fun i => v i ≤ K) ×ˢ Finset.Icc 0 K).image some)
  have hI : ∀ i (m : ℤ), some (i, m) ∈ I ↔ (i < n ∧ v i ≤ K) ∧ 0 ≤ m ∧ m ≤ K := by
    intro i m
    simp only [I, Finset.mem_insert, reduceCtorEq, false_or, Finset.mem_image, Option.some.injEq, exists_eq_right,
      Finset.mem_product, Finset.mem_filter, Finset.mem_range, Finset.mem_Icc]
  obtain ⟨d', hd'⟩ := exists_same_place I
    (fun p => match p with | none => e | some (i, m) => (m : ℝ) - v i)
    (fun p => match p with | none => e' | some (i, m) => (m : ℝ) - w i) (by
      rintro (_ | ⟨i, m⟩) hi (_ | ⟨j, k⟩) hj
      · simp
      · obtain ⟨⟨h1, h2⟩, h3, h4⟩ := (hI j k).1 hj
        exact (he j h1 h2 k h3 h4).2
      · obtain ⟨⟨h1, h2⟩, h3, h4⟩ := (hI i m).1 hi
        exact (he i h1 h2 m h3 h4).1
      · obtain ⟨⟨h1, h2⟩, _⟩ := (hI i m).1 hi
        obtain ⟨⟨h3, h4⟩, _⟩ := (hI j k).1 hj
        have := h.diff j i h3 h1 h4 h2 (k - m)
        push_cast at this
        dsimp only
        constructor <;> intro hh
        · have := this.1 (by linarith); linarith
        · have := this.2 (by linarith); linarith) d
  refine ⟨d', ?_, fun i hi hk m h1 h2 => ?_, ?_⟩
  · have hm : some (0, (0 : ℤ)) ∈ I := (hI 0 0).2 ⟨⟨hn, by rw [hv.1]; exact_mod_cast hK⟩, le_refl _, hK⟩
    have := (hd' _ hm).1
    dsimp only at this
    rw [hv.1, hw.1] at this
    simpa using this.1 (by simpa using hd)
  · exact hd' (some (i, m)) ((hI i m).2 ⟨⟨hi, hk⟩, h1, h2⟩)
  · exact hd' none (by simp [I])

theorem SameDelay.zero (h : Alike n K v w) : SameDelay n K v w 0 0 := by
  intro i hi hk m _ hm
  have h1 := h.le i hi m hm
  have h2 := h.ge i hi m hm
  constructor <;> constructor <;> intro hh
  · have := h2; have h3 : (m : ℝ) ≤ v i ↔ _ := h2; have := h3.1 (by linarith); linarith
  · have := h2.2 (by linarith); linarith
  · have := h1.1 (by linarith); linarith
  · have := h1.2 (by linarith); linarith

/-! ## Changing a clock -/

theorem Alike.exists_assign (h : Alike n K v w) (hv : Valid n v) (hw : Valid n w) (hK : 0 ≤ K) {i : Nat} (hi0 : 0 < i)
    (hi : i < n) {x : ℝ} (hx : 0 ≤ x) : ∃ x', 0 ≤ x' ∧ Alike n K (assign v i x) (assign w i x') := by
  classical
  let I : Finset (ℕ × ℤ) := ((Finset.range n).filter fun j => v j ≤ K) ×ˢ Finset.Icc (-K) K
  have hI : ∀ j (m : ℤ), (j, m) ∈ I ↔ (j < n ∧ v j ≤ K) ∧ -K ≤ m ∧ m ≤ K := by
    intro j m
    simp only [I, Finset.mem_product, Finset.mem_filter, Finset.mem_range, Finset.mem_Icc]
  obtain ⟨x', hx'⟩ := exists_same_place I (fun p => v p.1 + p.2) (fun p => w p.1 + p.2) (by
    rintro ⟨j, m⟩ h1 ⟨k, m'⟩ h2
    obtain ⟨⟨h1, h3⟩, _⟩ := (hI j m).1 h1
    obtain ⟨⟨h2, h4⟩, _⟩ := (hI k m').1 h2
    have := h.diff j k h1 h2 h3 h4 (m' - m)
    push_cast at this
    dsimp only
    constructor <;> intro hh
    · have := this.1 (by linarith); linarith
    · have := this.2 (by linarith); linarith) x
  have h0 : ∀ m : ℤ, -K ≤ m → m ≤ K → ((m : ℝ) ≤ x ↔ (m : ℝ) ≤ x') ∧ (x ≤ m ↔ x' ≤ m) := by
    intro m h1 h2
    have := hx' (0, m) ((hI 0 m).2 ⟨⟨by omega, by rw [hv.1]; exact_mod_cast hK⟩, h1, h2⟩)
    dsimp only at this
    rw [hv.1, hw.1, zero_add] at this
    exact this
  have hx0 : 0 ≤ x' := by simpa using (h0 0 (by omega) hK).1.1 (by simpa using hx)
  refine ⟨x', hx0, Alike.of_clocks (assign_valid hv hi0 hi hx) (assign_valid hw hi0 hi hx0) ?_ ?_ ?_⟩
  · intro j _ hj m hm hmK
    by_cases hji : j = i
    · subst hji; rw [assign_same, assign_same]; exact (h0 m (by omega) hmK).2
    · rw [assign_other _ _ hji, assign_other _ _ hji]; exact h.le j hj m hmK
  · intro j _ hj m hm hmK
    by_cases hji : j = i
    · subst hji; rw [assign_same, assign_same]; exact (h0 m (by omega) hmK).1
    · rw [assign_other _ _ hji, assign_other _ _ hji]; exact h.ge j hj m hmK
  · have one : ∀ j, j < n → v j ≤ K → x ≤ K → ∀ m : ℤ,
        (x - v j ≤ m ↔ x' - w j ≤ m) ∧ (v j - x ≤ m ↔ w j - x' ≤ m) := by
      intro j hj hk hxK m
      have hk' := (h.le j hj K (le_refl _)).1 hk
      have hxK' := (h0 K (by omega) (le_refl _)).2.1 hxK
      have := hv.2.1 j
      have := hw.2.1 j
      constructor
      · by_cases h1 : -K ≤ m
        · by_cases h2 : m ≤ K
          · have := (hx' (j, m) ((hI j m).2 ⟨⟨hj, hk⟩, h1, h2⟩)).2
            dsimp only at this
            constructor <;> intro hh
            · have := this.1 (by linarith); linarith
            · have := this.2 (by linarith); linarith
          · have : (K : ℝ) < m := by exact_mod_cast not_le.1 h2
            constructor <;> intro <;> linarith
        · have : (m : ℝ) < -K := by exact_mod_cast not_le.1 h1
          constructor <;> intro <;> linarith
      · by_cases h1 : -K ≤ m
        · by_cases h2 : m ≤ K
          · have := (hx' (j, -m) ((hI j (-m)).2 ⟨⟨hj, hk⟩, by omega, by omega⟩)).1
            dsimp only at this
            push_cast at this
            constructor <;> intro hh
            · have := this.1 (by linarith); linarith
            · have := this.2 (by linarith); linarith
          · have : (K : ℝ) < m := by exact_mod_cast not_le.1 h2
            constructor <;> intro <;> linarith
        · have : (m : ℝ) < -K := by exact_mod_cast not_le.1 h1
          constructor <;> intro <;> linarith
    intro j k _ _ hj hk h1 h2 m
    by_cases hji : j = i
    · subst hji
      rw [assign_same] at h1 ⊢
      rw [assign_same]
      by_cases hki : k = j
      · subst hki; rw [assign_same, assign_same, sub_self, sub_self]
      · rw [assign_other _ _ hki] at h2 ⊢
        rw [assign_other _ _ hki]
        exact (one k hk h2 h1 m).1
    · rw [assign_other _ _ hji] at h1 ⊢
      rw [assign_other _ _ hji]
      by_cases hki : k = i
      · subst hki
        rw [assign_same] at h2 ⊢
        rw [assign_same]
        exact (one j hj h1 h2 m).2
      · rw [assign_other _ _ hki] at h2 ⊢
        rw [assign_other _ _ hki]
        exact h.diff j k hj hk h1 h2 m

/-! ## Finitely many regions -/

theorem Alike.of_type (hn : 0 < n) (hv : Valid n v) (hw : Valid n w)
    (h : Closure.ty n (fun _ => some K) v = Closure.ty n (fun _ => some K) w) : Alike n K v w := by
  classical
  have hlow : ∀ u : Val, ∀ i, 0 < i → (Closure.Low (fun _ => some K) u i ↔ u i ≤ K) := by
    intro u i hi
    constructor
    · rintro (h | ⟨m, h1, h2⟩)
      · omega
      · cases h1; exact h2
    · exact fun h => .inr ⟨K, rfl, h⟩
  have hl : ∀ i, 0 < i → i < n → (v i ≤ K ↔ w i ≤ K) := by
    intro i h0 hi
    have := congrFun (congrFun h ⟨i, hi⟩) ⟨i, hi⟩
    simp only [Closure.ty, Prod.mk.injEq, decide_eq_decide] at this
    rw [← hlow v i h0, ← hlow w i h0]
    exact this.2.2
  have hcut : ∀ u : Val, ∀ i, 0 < i → u i ≤ K → Closure.cut (fun _ => some K) u i = u i := by
    intro u i h0 hk; unfold Closure.cut; rw [if_pos ((hlow u i h0).2 hk)]
  have hcut0 : ∀ u : Val, Valid n u → Closure.cut (fun _ => some K) u 0 = 0 := fun u hu =>
    (Closure.cut_valid (b := fun _ => some K) hu).1
  have hsat : ∀ i j, i < n → j < n → ∀ c : Ineq,
      c.Sat (Closure.cut (fun _ => some K) v i - Closure.cut (fun _ => some K) v j) ↔
        c.Sat (Closure.cut (fun _ => some K) w i - Closure.cut (fun _ => some K) w j) := by
    intro i j hi hj c
    have := congrFun (congrFun h ⟨i, hi⟩) ⟨j, hj⟩
    simp only [Closure.ty, Prod.mk.injEq] at this
    exact ⟨Closure.sat_of_type this.1 this.2.1 c, Closure.sat_of_type this.1.symm this.2.1.symm c⟩
  refine Alike.of_clocks hv hw ?_ ?_ ?_
  · intro i h0 hi m _ hm
    have hmr : (m : ℝ) ≤ K := by exact_mod_cast hm
    by_cases hk : v i ≤ K
    · have := hsat i 0 hi hn (.LE m)
      rw [hcut v i h0 hk, hcut w i h0 ((hl i h0 hi).1 hk), hcut0 v hv, hcut0 w hw, sub_zero, sub_zero] at this
      exact this
    · have hk' : ¬ w i ≤ K := fun hc => hk ((hl i h0 hi).2 hc)
      exact ⟨fun hh => absurd (hh.trans hmr) hk, fun hh => absurd (hh.trans hmr) hk'⟩
  · intro i h0 hi m _ hm
    have hmr : (m : ℝ) ≤ K := by exact_mod_cast hm
    by_cases hk : v i ≤ K
    · have := hsat 0 i hn hi (.LE (-m))
      rw [hcut v i h0 hk, hcut w i h0 ((hl i h0 hi).1 hk), hcut0 v hv, hcut0 w hw] at this
      simp only [Ineq.Sat, zero_sub, Int.cast_neg, neg_le_neg_iff] at this
      exact this
    · have hk' : ¬ w i ≤ K := fun hc => hk ((hl i h0 hi).2 hc)
      exact ⟨fun _ => by linarith [not_le.1 hk'], fun _ => by linarith [not_le.1 hk]⟩
  · intro i j hi0 hj0 hi hj h1 h2 m
    have := hsat i j hi hj (.LE m)
    rw [hcut v i hi0 h1, hcut w i hi0 ((hl i hi0 hi).1 h1), hcut v j hj0 h2, hcut w j hj0 ((hl j hj0 hj).1 h2)] at this
    exact this

/-- There are finitely many sets of regions. -/
theorem regionSets_finite (hn : 0 < n) (K : ℤ) :
    {S : Set Val | (∀ v ∈ S, Valid n v) ∧ RegionSet n K S}.Finite := by
  refine Set.Finite.subset (((Closure.types_finite n fun _ => some K).finite_subsets).image
    fun X => {v | Valid n v ∧ Closure.ty n (fun _ => some K) v ∈ X}) ?_
  rintro S ⟨h1, h2⟩
  refine ⟨Closure.ty n (fun _ => some K) '' S, Set.image_mono h1, ?_⟩
  ext v
  constructor
  · rintro ⟨hv, u, hu, ht⟩
    exact h2 u v (h1 u hu) hv (Alike.of_type hn (h1 u hu) hv ht) hu
  · exact fun hv => ⟨h1 v hv, v, hv, rfl⟩

/-! ## Operations -/

theorem RegionSet.inter {S T : Set Val} (hS : RegionSet n K S) (hT : RegionSet n K T) : RegionSet n K (S ∩ T) :=
  fun v w hv hw ha h => ⟨hS v w hv hw ha h.1, hT v w hv hw ha h.2⟩

theorem RegionSet.union {S T : Set Val} (hS : RegionSet n K S) (hT : RegionSet n K T) : RegionSet n K (S ∪ T) :=
  fun v w hv hw ha h => h.imp (hS v w hv hw ha) (hT v w hv hw ha)

theorem RegionSet.without {S T : Set Val} (hS : RegionSet n K S) (hT : RegionSet n K T) :
    RegionSet n K {v | v ∈ S ∧ v ∉ T} :=
  fun v w hv hw ha h => ⟨hS v w hv hw ha h.1, fun hc => h.2 (hT w v hw hv ha.symm hc)⟩

theorem RegionSet.valid : RegionSet n K {v | Valid n v} := fun _ _ _ hw _ _ => hw

theorem RegionSet.all : RegionSet n K Set.univ := fun _ _ _ _ _ _ => trivial

theorem RegionSet.none : RegionSet n K ∅ := fun _ _ _ _ _ h => h.elim

/-- Comparing a clock with an integer. -/
theorem RegionSet.upper {i : Nat} (hi : i < n) {m : ℤ} (hm : m ≤ K) : RegionSet n K {v | v i ≤ m} :=
  fun _ _ _ _ ha h => (ha.le i hi m hm).1 h

theorem RegionSet.lower {i : Nat} (hi : i < n) {m : ℤ} (hm : m ≤ K) : RegionSet n K {v | (m : ℝ) ≤ v i} :=
  fun _ _ _ _ ha h => (ha.ge i hi m hm).1 h

/-- What can be said of the moments after a valuation, up to some moment, in terms of sets of regions. -/
theorem RegionSet.past {S T : Set Val} (hn : 0 < n) (hK : 0 ≤ K) (hS : RegionSet n K S) (hT : RegionSet n K T) :
    RegionSet n K {v | Valid n v ∧ ∃ d : ℝ, 0 ≤ d ∧ delay n v d ∈ S ∧ ∀ e : ℝ, 0 ≤ e → e < d → delay n v e ∉ T} := by
  rintro v w hv hw ha ⟨_, d, hd, h1, h2⟩
  obtain ⟨d', hd', hs, _⟩ := ha.exists_delay hv hw hn hK (SameDelay.zero ha) hd
  refine ⟨hw, d', hd', hS _ _ (delay_valid hv hd) (delay_valid hw hd') (hs.alike ha hv hw hd hd') h1,
    fun e' he' hlt hT' => ?_⟩
  have hs' : SameDelay n K w v d' d := fun i hi hk m h3 h4 =>
    let h := hs i hi ((ha.le i hi K (le_refl _)).2 hk) m h3 h4
    ⟨h.1.symm, h.2.symm⟩
  obtain ⟨e, he, hse, h3, _⟩ := ha.symm.exists_delay hw hv hn hK hs' he'
  refine h2 e he (not_le.1 fun hc => absurd (h3.2 hc) (by linarith))
    (hT _ _ (delay_valid hw he') (delay_valid hv he) (hse.alike ha.symm hw hv he' he) hT')

theorem RegionSet.past' {S T : Set Val} (hn : 0 < n) (hK : 0 ≤ K) (hS : RegionSet n K S) (hT : RegionSet n K T) :
    RegionSet n K {v | Valid n v ∧ ∃ d : ℝ, 0 ≤ d ∧ delay n v d ∈ S ∧ ∀ e : ℝ, 0 ≤ e → e ≤ d → delay n v e ∉ T} := by
  rintro v w hv hw ha ⟨_, d, hd, h1, h2⟩
  obtain ⟨d', hd', hs, _⟩ := ha.exists_delay hv hw hn hK (SameDelay.zero ha) hd
  refine ⟨hw, d', hd', hS _ _ (delay_valid hv hd) (delay_valid hw hd') (hs.alike ha hv hw hd hd') h1,
    fun e' he' hle hT' => ?_⟩
  have hs' : SameDelay n K w v d' d := fun i hi hk m h3 h4 =>
    let h := hs i hi ((ha.le i hi K (le_refl _)).2 hk) m h3 h4
    ⟨h.1.symm, h.2.symm⟩
  obtain ⟨e, he, hse, _, h3⟩ := ha.symm.exists_delay hw hv hn hK hs' he'
  exact h2 e he (h3.1 hle)
    (hT _ _ (delay_valid hw he') (delay_valid hv he) (hse.alike ha.symm hw hv he' he) hT')

theorem RegionSet.down {S : Set Val} (hn : 0 < n) (hK : 0 ≤ K) (hS : RegionSet n K S) :
    RegionSet n K {v | Valid n v ∧ ∃ d : ℝ, 0 ≤ d ∧ delay n v d ∈ S} := by
  have := RegionSet.past hn hK hS (RegionSet.none (n := n) (K := K))
  intro v w hv hw ha h
  obtain ⟨h1, d, hd, h2⟩ := h
  obtain ⟨h3, d', hd', h4, _⟩ := this v w hv hw ha ⟨h1, d, hd, h2, fun _ _ _ h => h⟩
  exact ⟨h3, d', hd', h4⟩

theorem RegionSet.free {S : Set Val} (hS : RegionSet n K S) (hK : 0 ≤ K) (hSv : ∀ v ∈ S, Valid n v) {i : Nat} (hi0 : 0 < i)
    (hi : i < n) : RegionSet n K {w | ∃ v ∈ S, ∃ x : ℝ, 0 ≤ x ∧ w = assign v i x} := by
  rintro v w hv hw ha ⟨u, hu, x, hx, rfl⟩
  have hu' := hSv u hu
  obtain ⟨x', hx', h⟩ := ha.exists_assign hv hw hK hi0 hi (hu'.2.1 i)
  rw [assign_assign, assign_self] at h
  exact ⟨assign w i x', hS u _ hu' (assign_valid hw hi0 hi hx') h hu, w i, hw.2.1 i, by rw [assign_assign, assign_self]⟩

end Reveaal
