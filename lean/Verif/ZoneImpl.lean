import Verif.Zones
import Mathlib.Tactic.Push
import Mathlib.Tactic.Ring
import Mathlib.Tactic.Tauto
import Mathlib.Data.List.Dedup

/-!
# A concrete zone library

A computable implementation of `ZoneLib`, showing that the assumed laws are satisfiable and letting
the kernel evaluate the model on concrete systems.  A federation is a list of conjunctions of
difference constraints; projections are computed by Fourier–Motzkin elimination.  This is *not* a
model of `edbm`'s data structures (they are not in `/repo`).
-/

namespace Reveaal
namespace ZoneImpl

/-- Sum of two inequalities: `x ⋈ a`, `y ⋈ b` give `x + y ⋈ a + b`. -/
def addIneq : Ineq → Ineq → Ineq
  | .LE a, .LE b => .LE (a + b)
  | .LE a, .LS b => .LS (a + b)
  | .LS a, .LE b => .LS (a + b)
  | .LS a, .LS b => .LS (a + b)

/-- Negation of `x - y ⋈ c` as a constraint on `y - x`. -/
def negIneq : Ineq → Ineq
  | .LE c => .LS (-c)
  | .LS c => .LE (-c)

/-- Does `0` satisfy the inequality? -/
def zeroSat : Ineq → Bool
  | .LE c => decide (0 ≤ c)
  | .LS c => decide (0 < c)

/-- The tighter of two inequalities. -/
def minIneq : Ineq → Ineq → Ineq
  | .LE a, .LE b => .LE (min a b)
  | .LS a, .LS b => .LS (min a b)
  | .LE a, .LS b => if a < b then .LE a else .LS b
  | .LS a, .LE b => if b < a then .LE b else .LS a

theorem addIneq_sat {a b : Ineq} {x y : ℝ} (ha : a.Sat x) (hb : b.Sat y) :
    (addIneq a b).Sat (x + y) := by
  cases a <;> cases b <;> simp only [addIneq, Ineq.Sat, Int.cast_add] at * <;> linarith

theorem negIneq_sat {a : Ineq} {x y : ℝ} : (negIneq a).Sat (y - x) ↔ ¬ a.Sat (x - y) := by
  cases a <;> simp only [negIneq, Ineq.Sat, Int.cast_neg, not_le, not_lt] <;>
    constructor <;> intro h <;> linarith

theorem zeroSat_iff (a : Ineq) : zeroSat a = true ↔ a.Sat 0 := by
  cases a <;> simp [zeroSat, Ineq.Sat]

theorem minIneq_sat (a b : Ineq) (x : ℝ) : (minIneq a b).Sat x ↔ a.Sat x ∧ b.Sat x := by
  rcases a with a | a <;> rcases b with b | b
  · simp [minIneq, Ineq.Sat]
  · by_cases h : a < b
    · have h' : (a : ℝ) < b := by exact_mod_cast h
      simp only [minIneq, h, if_true, Ineq.Sat]
      exact ⟨fun h => ⟨h, by linarith⟩, fun h => h.1⟩
    · have h' : (b : ℝ) ≤ a := by exact_mod_cast not_lt.mp h
      simp only [minIneq, h, if_false, Ineq.Sat]
      exact ⟨fun h => ⟨by linarith, h⟩, fun h => h.2⟩
  · by_cases h : b < a
    · have h' : (b : ℝ) < a := by exact_mod_cast h
      simp only [minIneq, h, if_true, Ineq.Sat]
      exact ⟨fun h => ⟨by linarith, h⟩, fun h => h.2⟩
    · have h' : (a : ℝ) ≤ b := by exact_mod_cast not_lt.mp h
      simp only [minIneq, h, if_false, Ineq.Sat]
      exact ⟨fun h => ⟨h, by linarith⟩, fun h => h.1⟩
  · simp [minIneq, Ineq.Sat]

/-! ## Normalisation: one constraint per clock pair, trivial ones dropped -/

/-- Insert a constraint, keeping the tightest one per pair of clocks. -/
def ins (c : Constr) : Conj → Conj
  | [] => [c]
  | d :: ds =>
    if d.i = c.i ∧ d.j = c.j then ⟨c.i, c.j, minIneq d.ineq c.ineq⟩ :: ds else d :: ins c ds

theorem ins_sat (c : Constr) (cs : Conj) (v : Val) :
    Conj.Sat (ins c cs) v ↔ Constr.Sat c v ∧ Conj.Sat cs v := by
  induction cs with
  | nil => simp [ins, Conj.Sat]
  | cons d ds ih =>
    unfold ins
    split
    · rename_i h
      obtain ⟨h1, h2⟩ := h
      simp only [Conj.Sat, List.mem_cons, forall_eq_or_imp, Constr.Sat, minIneq_sat, h1, h2]
      tauto
    · simp only [Conj.Sat, List.mem_cons, forall_eq_or_imp] at *
      rw [ih]; tauto

/-- A constraint that holds of every valuation: `i - i ⋈ c` satisfied, or `0 - j ≤ c` with `c ≥ 0`. -/
def trivialC (c : Constr) : Bool :=
  (decide (c.i = c.j) && zeroSat c.ineq) || (decide (c.i = 0) && zeroSat c.ineq)

theorem zeroSat_nonpos {a : Ineq} (h : zeroSat a = true) {x : ℝ} (hx : x ≤ 0) : a.Sat x := by
  cases a <;> simp only [zeroSat, decide_eq_true_eq, Ineq.Sat] at *
  · have : (0 : ℝ) ≤ _ := Int.cast_nonneg h
    linarith
  · have : (0 : ℝ) < _ := Int.cast_pos.mpr h
    linarith

theorem trivialC_sat {n : Nat} {c : Constr} {v : Val} (hv : Valid n v) (h : trivialC c = true) :
    Constr.Sat c v := by
  simp only [trivialC, Bool.or_eq_true, Bool.and_eq_true, decide_eq_true_eq] at h
  rcases h with ⟨h1, h2⟩ | ⟨h1, h2⟩
  · exact zeroSat_nonpos h2 (by rw [h1]; linarith)
  · refine zeroSat_nonpos h2 ?_
    rw [h1, hv.1]; linarith [hv.2.1 c.j]

def norm (cs : Conj) : Conj := (cs.filter (fun c => !trivialC c)).foldr ins []

theorem norm_sat {n : Nat} {cs : Conj} {v : Val} (hv : Valid n v) :
    Conj.Sat (norm cs) v ↔ Conj.Sat cs v := by
  unfold norm
  induction cs with
  | nil => simp [Conj.Sat]
  | cons c cs ih =>
    rw [List.filter_cons]
    split
    · rw [List.foldr_cons, ins_sat, ih]; simp [Conj.Sat]
    · rename_i h
      have : trivialC c = true := by simpa using h
      rw [ih]
      simp only [Conj.Sat, List.mem_cons, forall_eq_or_imp]
      exact ⟨fun h => ⟨trivialC_sat hv this, h⟩, fun h => h.2⟩

/-! ## Fourier–Motzkin elimination -/

/-- All sums of a lower and an upper bound on clock `k`. -/
def combos (lo up : Conj) : Conj :=
  lo.flatMap fun l => up.map fun u => ⟨l.i, u.j, addIneq l.ineq u.ineq⟩

/-- Eliminate clock `k`. -/
def elim (k : Nat) (cs : Conj) : Conj :=
  let rest := cs.filter fun c => decide (c.i ≠ k ∧ c.j ≠ k)
  let selfs := (cs.filter fun c => decide (c.i = k ∧ c.j = k)).map fun c => ⟨0, 0, c.ineq⟩
  let up := cs.filter fun c => decide (c.i = k ∧ c.j ≠ k)
  let lo := cs.filter fun c => decide (c.i ≠ k ∧ c.j = k)
  rest ++ selfs ++ combos lo up

/-- lower bound `l.1 ⋈ x` with strictness `l.2` -/
def LoSat (l : ℝ × Bool) (x : ℝ) : Prop := if l.2 then l.1 < x else l.1 ≤ x
def UpSat (u : ℝ × Bool) (x : ℝ) : Prop := if u.2 then x < u.1 else x ≤ u.1
def Compat (l u : ℝ × Bool) : Prop := if l.2 || u.2 then l.1 < u.1 else l.1 ≤ u.1

theorem exists_max (L : List (ℝ × Bool)) (h : L ≠ []) : ∃ m ∈ L, ∀ l ∈ L, l.1 ≤ m.1 := by
  induction L with
  | nil => exact absurd rfl h
  | cons a as ih =>
    by_cases has : as = []
    · subst has; exact ⟨a, by simp, by simp⟩
    · obtain ⟨m, hm, hmax⟩ := ih has
      by_cases hc : m.1 ≤ a.1
      · refine ⟨a, by simp, ?_⟩
        intro l hl
        rcases List.mem_cons.mp hl with rfl | hl
        · exact le_refl _
        · exact (hmax l hl).trans hc
      · refine ⟨m, by simp [hm], ?_⟩
        intro l hl
        rcases List.mem_cons.mp hl with rfl | hl
        · exact (not_le.mp hc).le
        · exact hmax l hl

theorem exists_min (L : List (ℝ × Bool)) (h : L ≠ []) : ∃ m ∈ L, ∀ l ∈ L, m.1 ≤ l.1 := by
  obtain ⟨m, hm, hmax⟩ := exists_max (L.map fun l => (-l.1, l.2)) (by simpa using h)
  obtain ⟨a, ha, rfl⟩ := List.mem_map.mp hm
  refine ⟨a, ha, ?_⟩
  intro l hl
  have := hmax (-l.1, l.2) (List.mem_map.mpr ⟨l, hl, rfl⟩)
  simpa using this

/-- Finitely many pairwise compatible lower and upper bounds have a common solution. -/
theorem exists_between (L U : List (ℝ × Bool)) (h : ∀ l ∈ L, ∀ u ∈ U, Compat l u) :
    ∃ x : ℝ, (∀ l ∈ L, LoSat l x) ∧ ∀ u ∈ U, UpSat u x := by
  by_cases hL : L = []
  · subst hL
    by_cases hU : U = []
    · subst hU; exact ⟨0, by simp, by simp⟩
    · obtain ⟨m, _, hmin⟩ := exists_min U hU
      refine ⟨m.1 - 1, by simp, ?_⟩
      intro u hu
      have := hmin u hu
      unfold UpSat; split <;> linarith
  · obtain ⟨m, hm, hmax⟩ := exists_max L hL
    by_cases hU : U = []
    · subst hU
      refine ⟨m.1 + 1, ?_, by simp⟩
      intro l hl
      have := hmax l hl
      unfold LoSat; split <;> linarith
    · obtain ⟨u0, hu0, hmin⟩ := exists_min U hU
      have hc := h m hm u0 hu0
      by_cases hlt : m.1 < u0.1
      · refine ⟨(m.1 + u0.1) / 2, ?_, ?_⟩
        · intro l hl
          have := hmax l hl
          unfold LoSat; split <;> linarith
        · intro u hu
          have := hmin u hu
          unfold UpSat; split <;> linarith
      · have heq : m.1 = u0.1 := by
          unfold Compat at hc
          split at hc
          · exact absurd hc hlt
          · exact le_antisymm hc (not_lt.mp hlt)
        refine ⟨m.1, ?_, ?_⟩
        · intro l hl
          have h1 := hmax l hl
          have h2 := h l hl u0 hu0
          unfold LoSat; unfold Compat at h2
          split
          · rename_i hs
            simp only [hs, Bool.true_or, if_true] at h2
            linarith
          · exact h1
        · intro u hu
          have h1 := hmin u hu
          have h2 := h m hm u hu
          unfold UpSat; unfold Compat at h2
          split
          · rename_i hs
            simp only [hs, Bool.or_true, if_true] at h2
            linarith
          · linarith

/-- bound and strictness of an inequality -/
def ival : Ineq → Int
  | .LE c => c
  | .LS c => c
def istrict : Ineq → Bool
  | .LE _ => false
  | .LS _ => true

theorem elim_sat (k : Nat) (cs : Conj) (v : Val) (_hk : k ≠ 0) (_hv : v 0 = 0) :
    Conj.Sat (elim k cs) v ↔ ∃ x : ℝ, Conj.Sat cs (assign v k x) := by
  constructor
  · intro h
    let L := (cs.filter fun c => decide (c.i ≠ k ∧ c.j = k)).map
      fun c => (v c.i - (ival c.ineq : ℝ), istrict c.ineq)
    let U := (cs.filter fun c => decide (c.i = k ∧ c.j ≠ k)).map
      fun c => (v c.j + (ival c.ineq : ℝ), istrict c.ineq)
    have hcompat : ∀ l ∈ L, ∀ u ∈ U, Compat l u := by
      intro l hl u hu
      obtain ⟨a, ha, rfl⟩ := List.mem_map.mp hl
      obtain ⟨b, hb, rfl⟩ := List.mem_map.mp hu
      have hmem : (⟨a.i, b.j, addIneq a.ineq b.ineq⟩ : Constr) ∈ elim k cs := by
        unfold elim combos
        simp only [List.mem_append, List.mem_flatMap, List.mem_map]
        exact Or.inr ⟨a, ha, b, hb, rfl⟩
      have hs := h _ hmem
      simp only [Constr.Sat] at hs
      rcases ha' : a.ineq with ca | ca <;> rcases hb' : b.ineq with cb | cb <;>
        simp only [ha', hb', addIneq, Ineq.Sat, Int.cast_add, Compat, ival, istrict] at * <;>
        simp <;> linarith
    obtain ⟨x, hxL, hxU⟩ := exists_between L U hcompat
    refine ⟨x, ?_⟩
    intro c hc
    unfold Constr.Sat
    by_cases h1 : c.i = k
    · by_cases h2 : c.j = k
      · have hmem : (⟨0, 0, c.ineq⟩ : Constr) ∈ elim k cs := by
          unfold elim
          simp only [List.mem_append, List.mem_map, List.mem_filter, decide_eq_true_eq]
          exact Or.inl (Or.inr ⟨c, ⟨hc, h1, h2⟩, rfl⟩)
        have hs := h _ hmem
        simp only [Constr.Sat, sub_self] at hs
        simpa [h1, h2] using hs
      · have := hxU (v c.j + (ival c.ineq : ℝ), istrict c.ineq)
          (List.mem_map.mpr ⟨c, List.mem_filter.mpr ⟨hc, by simp [h1, h2]⟩, rfl⟩)
        rw [h1, assign_same, assign_other _ _ h2]
        rcases hi : c.ineq with b | b <;>
          simp only [hi, UpSat, ival, istrict, Ineq.Sat] at * <;> simp at this <;> linarith
    · by_cases h2 : c.j = k
      · have := hxL (v c.i - (ival c.ineq : ℝ), istrict c.ineq)
          (List.mem_map.mpr ⟨c, List.mem_filter.mpr ⟨hc, by simp [h1, h2]⟩, rfl⟩)
        rw [h2, assign_same, assign_other _ _ h1]
        rcases hi : c.ineq with b | b <;>
          simp only [hi, LoSat, ival, istrict, Ineq.Sat] at * <;> simp at this <;> linarith
      · have hmem : c ∈ elim k cs := by
          unfold elim
          simp only [List.mem_append, List.mem_map, List.mem_filter, decide_eq_true_eq]
          exact Or.inl (Or.inl ⟨hc, h1, h2⟩)
        have hs := h _ hmem
        rw [assign_other _ _ h1, assign_other _ _ h2]
        exact hs
  · rintro ⟨x, h⟩ c hc
    unfold elim combos at hc
    simp only [List.mem_append, List.mem_map, List.mem_filter, decide_eq_true_eq,
      List.mem_flatMap] at hc
    rcases hc with (⟨hc, h1, h2⟩ | ⟨a, ⟨ha, h1, h2⟩, rfl⟩) | ⟨a, ⟨ha, ha1, ha2⟩, b, ⟨hb, hb1, hb2⟩, rfl⟩
    · have := h c hc
      unfold Constr.Sat at this ⊢
      rwa [assign_other _ _ h1, assign_other _ _ h2] at this
    · have := h a ha
      unfold Constr.Sat at this ⊢
      simpa [h1, h2, sub_self] using this
    · have h1 := h a ha
      have h2 := h b hb
      unfold Constr.Sat at h1 h2 ⊢
      rw [assign_other _ _ ha1, ha2, assign_same] at h1
      rw [assign_other _ _ hb2, hb1, assign_same] at h2
      have := addIneq_sat h1 h2
      convert this using 1
      ring

/-! ## Federations -/

/-- A federation of dimension `n`. -/
structure Fed (n : Nat) where
  zones : List Conj

variable {n : Nat}

def den (z : Fed n) : Set Val := {v | Valid n v ∧ Disj.Sat z.zones v}

/-- indices outside the dimension denote the constant 0 -/
def clampIdx (n i : Nat) : Nat := if i < n then i else 0

theorem clamp_val {v : Val} (hv : Valid n v) (i : Nat) : v (clampIdx n i) = v i := by
  unfold clampIdx
  split
  · rfl
  · rw [hv.1, hv.2.2 i (by omega)]

def clampC (n : Nat) (c : Constr) : Constr := ⟨clampIdx n c.i, clampIdx n c.j, c.ineq⟩

theorem clampC_sat {v : Val} (hv : Valid n v) (c : Constr) :
    (clampC n c).Sat v ↔ c.Sat v := by
  unfold Constr.Sat clampC; simp only [clamp_val hv]

/-- Eliminate all clocks `1..k`. -/
def elimAll : Nat → Conj → Conj
  | 0, cs => cs
  | k + 1, cs => elimAll k (norm0 (elim (k + 1) (⟨0, k + 1, .LE 0⟩ :: cs)))
where
  /-- normalisation that is valid for every valuation with clock 0 equal to 0 -/
  norm0 (cs : Conj) : Conj := (cs.filter fun c => !(decide (c.i = c.j) && zeroSat c.ineq)).foldr ins []

theorem norm0_sat (cs : Conj) (v : Val) : Conj.Sat (elimAll.norm0 cs) v ↔ Conj.Sat cs v := by
  unfold elimAll.norm0
  induction cs with
  | nil => simp [Conj.Sat]
  | cons c cs ih =>
    rw [List.filter_cons]
    split
    · rw [List.foldr_cons, ins_sat, ih]; simp [Conj.Sat]
    · rename_i h
      have : c.i = c.j ∧ zeroSat c.ineq = true := by simpa using h
      rw [ih]
      simp only [Conj.Sat, List.mem_cons, forall_eq_or_imp]
      refine ⟨fun h => ⟨?_, h⟩, fun h => h.2⟩
      unfold Constr.Sat
      exact zeroSat_nonpos this.2 (by rw [this.1]; linarith)

theorem elimAll_sat (k : Nat) (cs : Conj) (v : Val) (hv : v 0 = 0) :
    Conj.Sat (elimAll k cs) v ↔
      ∃ w : Val, (∀ i, (i = 0 ∨ k < i) → w i = v i) ∧ (∀ i, 0 < i → i ≤ k → 0 ≤ w i) ∧
        Conj.Sat cs w := by
  induction k generalizing cs with
  | zero =>
    simp only [elimAll]
    constructor
    · intro h; exact ⟨v, by simp, by intro i h1 h2; omega, h⟩
    · rintro ⟨w, h1, _, h3⟩
      have : w = v := by funext i; exact h1 i (by omega)
      rwa [this] at h3
  | succ k ih =>
    simp only [elimAll]
    rw [ih]
    constructor
    · rintro ⟨w, h1, h2, h3⟩
      have hw0 : w 0 = 0 := by rw [h1 0 (Or.inl rfl), hv]
      rw [norm0_sat, elim_sat _ _ _ (by omega) hw0] at h3
      obtain ⟨x, hx⟩ := h3
      refine ⟨assign w (k + 1) x, ?_, ?_, ?_⟩
      · intro i hi
        rw [assign_other _ _ (by omega)]; exact h1 i (by omega)
      · intro i hi1 hi2
        by_cases hik : i = k + 1
        · have := hx ⟨0, k + 1, .LE 0⟩ (by simp)
          unfold Constr.Sat at this
          simp only [Ineq.Sat] at this
          rw [assign_other _ _ (by omega : 0 ≠ k + 1), hw0, assign_same] at this
          rw [hik, assign_same]
          simp at this; exact this
        · rw [assign_other _ _ hik]; exact h2 i hi1 (by omega)
      · intro c hc; exact hx c (by simp [hc])
    · rintro ⟨w, h1, h2, h3⟩
      refine ⟨assign w (k + 1) (v (k + 1)), ?_, ?_, ?_⟩
      · intro i hi
        by_cases hik : i = k + 1
        · rw [hik, assign_same]
        · rw [assign_other _ _ hik]; exact h1 i (by omega)
      · intro i hi1 hi2
        rw [assign_other _ _ (by omega)]; exact h2 i hi1 (by omega)
      · have hw0 : w 0 = 0 := by rw [h1 0 (Or.inl rfl), hv]
        rw [norm0_sat, elim_sat _ _ _ (by omega) (by rw [assign_other _ _ (by omega)]; exact hw0)]
        refine ⟨w (k + 1), ?_⟩
        rw [assign_assign, assign_self]
        intro c hc
        rcases List.mem_cons.mp hc with rfl | hc
        · unfold Constr.Sat; simp only [Ineq.Sat]
          have := h2 (k + 1) (by omega) (le_refl _)
          rw [hw0]; simp; exact this
        · exact h3 c hc

/-- Is a conjunction unsatisfiable?  After eliminating all clocks only constants remain. -/
def emptyConj (n : Nat) (cs : Conj) : Bool :=
  (elimAll (n - 1) (cs.map (clampC n))).any fun c => !zeroSat c.ineq

theorem elim_idx {k : Nat} {cs : Conj} (p : Nat → Prop) (h0 : p 0)
    (h : ∀ c ∈ cs, (p c.i ∨ c.i = k) ∧ (p c.j ∨ c.j = k)) :
    ∀ c ∈ elim k cs, p c.i ∧ p c.j := by
  intro c hc
  unfold elim combos at hc
  simp only [List.mem_append, List.mem_map, List.mem_filter, decide_eq_true_eq,
    List.mem_flatMap] at hc
  rcases hc with (⟨hc, h1, h2⟩ | ⟨a, ⟨ha, h1, h2⟩, rfl⟩) | ⟨a, ⟨ha, ha1, ha2⟩, b, ⟨hb, hb1, hb2⟩, rfl⟩
  · have := h c hc; tauto
  · exact ⟨h0, h0⟩
  · have h1 := h a ha; have h2 := h b hb; simp only; tauto

theorem ins_idx (p : Nat → Prop) (c : Constr) (cs : Conj) (hc : p c.i ∧ p c.j)
    (h : ∀ c ∈ cs, p c.i ∧ p c.j) : ∀ d ∈ ins c cs, p d.i ∧ p d.j := by
  induction cs with
  | nil => intro d hd; simp [ins] at hd; subst hd; exact hc
  | cons a as ih =>
    intro d hd
    unfold ins at hd
    split at hd
    · rcases List.mem_cons.mp hd with rfl | hd
      · exact hc
      · exact h d (by simp [hd])
    · rcases List.mem_cons.mp hd with rfl | hd
      · exact h _ (by simp)
      · exact ih (fun c hc => h c (by simp [hc])) d hd

theorem foldr_ins_idx (p : Nat → Prop) (cs : Conj) (h : ∀ c ∈ cs, p c.i ∧ p c.j) :
    ∀ d ∈ cs.foldr ins [], p d.i ∧ p d.j := by
  induction cs with
  | nil => simp
  | cons a as ih =>
    rw [List.foldr_cons]
    exact ins_idx p a _ (h a (by simp)) (ih fun c hc => h c (by simp [hc]))

theorem elimAll_idx (k : Nat) (cs : Conj) (h : ∀ c ∈ cs, c.i ≤ k ∧ c.j ≤ k) :
    ∀ c ∈ elimAll k cs, c.i = 0 ∧ c.j = 0 := by
  induction k generalizing cs with
  | zero => intro c hc; have := h c hc; omega
  | succ k ih =>
    simp only [elimAll]
    refine ih _ ?_
    unfold elimAll.norm0
    refine foldr_ins_idx (fun i => i ≤ k) _ ?_
    intro c hc
    refine elim_idx (fun i => i ≤ k) (by omega) ?_ c (List.mem_filter.mp hc).1
    intro c hc
    rcases List.mem_cons.mp hc with rfl | hc
    · simp
    · have := h c hc; omega

theorem emptyConj_iff (hn : 0 < n) (cs : Conj) :
    emptyConj n cs = true ↔ ¬ ∃ v, Valid n v ∧ Conj.Sat cs v := by
  let z : Val := fun _ => 0
  have hidx := elimAll_idx (n - 1) (cs.map (clampC n)) (by
    intro c hc
    obtain ⟨a, _, rfl⟩ := List.mem_map.mp hc
    unfold clampC clampIdx; simp only; constructor <;> split <;> omega)
  have key : Conj.Sat (elimAll (n - 1) (cs.map (clampC n))) z ↔ ∃ v, Valid n v ∧ Conj.Sat cs v := by
    rw [elimAll_sat _ _ _ rfl]
    constructor
    · rintro ⟨w, h1, h2, h3⟩
      have hv : Valid n w := by
        refine ⟨h1 0 (Or.inl rfl), ?_, fun i hi => h1 i (by omega)⟩
        intro i
        by_cases hi : i = 0 ∨ n - 1 < i
        · rw [h1 i hi]
        · exact h2 i (by omega) (by omega)
      refine ⟨w, hv, ?_⟩
      intro c hc
      exact (clampC_sat hv c).mp (h3 _ (List.mem_map.mpr ⟨c, hc, rfl⟩))
    · rintro ⟨v, hv, h⟩
      refine ⟨v, ?_, fun i _ _ => hv.2.1 i, ?_⟩
      · rintro i (rfl | hi)
        · exact hv.1
        · exact hv.2.2 i (by omega)
      · intro c hc
        obtain ⟨a, ha, rfl⟩ := List.mem_map.mp hc
        exact (clampC_sat hv a).mpr (h a ha)
  rw [← key]
  unfold emptyConj
  constructor
  · intro h hs
    obtain ⟨c, hc, hb⟩ := List.any_eq_true.mp h
    have h1 := hs c hc
    unfold Constr.Sat at h1
    simp only [z, sub_self] at h1
    rw [← zeroSat_iff] at h1
    simp [h1] at hb
  · intro h
    by_contra hne
    apply h
    intro c hc
    unfold Constr.Sat
    simp only [z, sub_self]
    rw [← zeroSat_iff]
    by_contra hz
    apply hne
    exact List.any_eq_true.mpr ⟨c, hc, by simpa using hz⟩

def isEmpty (z : Fed n) : Bool := z.zones.all (emptyConj n)

theorem isEmpty_iff' (hn : 0 < n) (z : Fed n) : isEmpty z = true ↔ den z = ∅ := by
  unfold isEmpty den Disj.Sat
  rw [List.all_eq_true, Set.eq_empty_iff_forall_notMem]
  constructor
  · rintro h v ⟨hv, c, hc, hs⟩
    exact (emptyConj_iff hn c).mp (h c hc) ⟨v, hv, hs⟩
  · intro h c hc
    rw [emptyConj_iff hn]
    rintro ⟨v, hv, hs⟩
    exact h v ⟨hv, c, hc, hs⟩

/-- drop unsatisfiable conjunctions and normalise the others -/
def clean (n : Nat) (z : List Conj) : List Conj :=
  ((z.map fun c => norm (c.map (clampC n))).filter fun c => !emptyConj n c).dedup

theorem mapClamp_sat {v : Val} (hv : Valid n v) (c : Conj) :
    Conj.Sat (c.map (clampC n)) v ↔ Conj.Sat c v := by
  unfold Conj.Sat
  simp only [List.mem_map, forall_exists_index, and_imp, forall_apply_eq_imp_iff₂]
  exact forall₂_congr fun c _ => clampC_sat hv c

theorem clean_sat (hn : 0 < n) (z : List Conj) {v : Val} (hv : Valid n v) :
    Disj.Sat (clean n z) v ↔ Disj.Sat z v := by
  unfold clean Disj.Sat
  simp only [List.mem_dedup, List.mem_filter, List.mem_map, Bool.not_eq_true']
  constructor
  · rintro ⟨c, ⟨⟨a, ha, rfl⟩, _⟩, hs⟩
    exact ⟨a, ha, (mapClamp_sat hv a).mp ((norm_sat hv).mp hs)⟩
  · rintro ⟨a, ha, hs⟩
    refine ⟨_, ⟨⟨a, ha, rfl⟩, ?_⟩, (norm_sat hv).mpr ((mapClamp_sat hv a).mpr hs)⟩
    rw [← Bool.not_eq_true, emptyConj_iff hn]
    exact fun h => h ⟨v, hv, (norm_sat hv).mpr ((mapClamp_sat hv a).mpr hs)⟩

/-- Build a federation from raw conjunctions. -/
def mk (z : List Conj) : Fed n := ⟨clean n z⟩

theorem den_mk (hn : 0 < n) (z : List Conj) :
    den (mk z : Fed n) = {v | Valid n v ∧ Disj.Sat z v} := by
  ext v
  simp only [den, mk, Set.mem_ofPred_eq]
  exact and_congr_right fun hv => clean_sat hn z hv

def inter (a b : Fed n) : Fed n :=
  mk (a.zones.flatMap fun x => b.zones.map fun y => x ++ y)

theorem conj_append_sat (a b : Conj) (v : Val) :
    Conj.Sat (a ++ b) v ↔ Conj.Sat a v ∧ Conj.Sat b v := by
  unfold Conj.Sat
  simp only [List.mem_append]
  constructor
  · intro h; exact ⟨fun k hk => h k (Or.inl hk), fun k hk => h k (Or.inr hk)⟩
  · rintro ⟨h1, h2⟩ k (hk | hk)
    · exact h1 k hk
    · exact h2 k hk

theorem disj_prod_sat (a b : Disj) (v : Val) :
    Disj.Sat (a.flatMap fun x => b.map fun y => x ++ y) v ↔ Disj.Sat a v ∧ Disj.Sat b v := by
  unfold Disj.Sat
  simp only [List.mem_flatMap, List.mem_map]
  constructor
  · rintro ⟨c, ⟨x, hx, y, hy, rfl⟩, hs⟩
    rw [conj_append_sat] at hs
    exact ⟨⟨x, hx, hs.1⟩, ⟨y, hy, hs.2⟩⟩
  · rintro ⟨⟨x, hx, h1⟩, ⟨y, hy, h2⟩⟩
    exact ⟨x ++ y, ⟨x, hx, y, hy, rfl⟩, (conj_append_sat x y v).mpr ⟨h1, h2⟩⟩

/-- complement of one conjunction: some constraint is violated -/
def negConj (c : Conj) : Disj := c.map fun k => [⟨k.j, k.i, negIneq k.ineq⟩]

theorem negConj_sat (c : Conj) (v : Val) : Disj.Sat (negConj c) v ↔ ¬ Conj.Sat c v := by
  unfold negConj Disj.Sat Conj.Sat
  constructor
  · rintro ⟨d, hd, hs⟩ h
    obtain ⟨k, hk, rfl⟩ := List.mem_map.mp hd
    have h1 := hs _ (List.mem_singleton.mpr rfl)
    unfold Constr.Sat at h1
    exact negIneq_sat.mp h1 (h k hk)
  · intro h
    by_contra hne
    apply h
    intro k hk
    by_contra hns
    apply hne
    refine ⟨_, List.mem_map.mpr ⟨k, hk, rfl⟩, ?_⟩
    intro d hd
    rw [List.mem_singleton.mp hd]
    unfold Constr.Sat
    exact negIneq_sat.mpr hns

/-- complement: product of the complements, cleaned at each step -/
def negDisj (n : Nat) : Disj → Disj
  | [] => [[]]
  | c :: cs => clean n ((negConj c).flatMap fun x => (negDisj n cs).map fun y => x ++ y)

theorem negDisj_sat (hn : 0 < n) (d : Disj) {v : Val} (hv : Valid n v) :
    Disj.Sat (negDisj n d) v ↔ ¬ Disj.Sat d v := by
  induction d with
  | nil => simp [negDisj, Disj.Sat, Conj.Sat]
  | cons c cs ih =>
    unfold negDisj
    rw [clean_sat hn _ hv, disj_prod_sat, negConj_sat, ih]
    unfold Disj.Sat
    simp only [List.mem_cons, exists_eq_or_imp]
    rw [not_or]

def inverse (a : Fed n) : Fed n := mk (negDisj n a.zones)

def upConj (n : Nat) (cs : Conj) : Conj :=
  let sh := fun i => if i = 0 then n else i
  let moved := (cs.map (clampC n)).map fun c => (⟨sh c.i, sh c.j, c.ineq⟩ : Constr)
  let pos := (List.range n).map fun i => (⟨n, sh i, .LE 0⟩ : Constr)
  elim n (⟨0, n, .LE 0⟩ :: (pos ++ moved))

theorem upConj_sat (hn : 0 < n) (cs : Conj) (w : Val) (hw : Valid n w) :
    Conj.Sat (upConj n cs) w ↔ ∃ v, Valid n v ∧ Conj.Sat cs v ∧ ∃ d : ℝ, 0 ≤ d ∧ w = delay n v d := by
  unfold upConj
  simp only
  rw [elim_sat _ _ _ (by omega) hw.1]
  have hsh : ∀ (d : ℝ) (i : Nat), i < n → (assign w n d) (if i = 0 then n else i)
      = (if i = 0 then 0 else w i - d) + d := by
    intro d i hi
    by_cases h : i = 0
    · simp [h]
    · rw [if_neg h, if_neg h, assign_other _ _ (by omega)]; ring
  have hcl : ∀ i, clampIdx n i < n := by intro i; unfold clampIdx; split <;> omega
  constructor
  · rintro ⟨d, h⟩
    have hd : 0 ≤ d := by
      have := h ⟨0, n, .LE 0⟩ (by simp)
      unfold Constr.Sat at this
      simp only [Ineq.Sat] at this
      rw [assign_other _ _ (by omega : 0 ≠ n), hw.1, assign_same] at this
      simpa using this
    have hge : ∀ i, 0 < i → i < n → d ≤ w i := by
      intro i hi hin
      have := h ⟨n, if i = 0 then n else i, .LE 0⟩ (by
        simp only [List.mem_cons, List.mem_append, List.mem_map, List.mem_range]
        exact Or.inr (Or.inl ⟨i, hin, rfl⟩))
      unfold Constr.Sat at this
      simp only [Ineq.Sat] at this
      rw [hsh d i hin, assign_same, if_neg (by omega)] at this
      simp at this; linarith
    let v : Val := fun i => if 0 < i ∧ i < n then w i - d else w i
    have hv : Valid n v := by
      refine ⟨by simp [v, hw.1], ?_, ?_⟩
      · intro i; simp only [v]; split
        · rename_i hh; linarith [hge i hh.1 hh.2]
        · exact hw.2.1 i
      · intro i hi; simp only [v]; rw [if_neg (by omega)]; exact hw.2.2 i hi
    refine ⟨v, hv, ?_, d, hd, ?_⟩
    · rw [← mapClamp_sat hv]
      intro c hc
      have hcidx : c.i < n ∧ c.j < n := by
        obtain ⟨a, _, rfl⟩ := List.mem_map.mp hc
        exact ⟨hcl _, hcl _⟩
      have := h ⟨if c.i = 0 then n else c.i, if c.j = 0 then n else c.j, c.ineq⟩ (by
        simp only [List.mem_cons, List.mem_append]
        exact Or.inr (Or.inr (List.mem_map.mpr ⟨c, hc, rfl⟩)))
      unfold Constr.Sat at this ⊢
      simp only at this
      rw [hsh d _ hcidx.1, hsh d _ hcidx.2] at this
      have e : ∀ i, i < n → v i = if i = 0 then 0 else w i - d := by
        intro i hi
        by_cases h0 : i = 0
        · subst h0; simp [v, hw.1]
        · simp only [v, if_neg h0]; rw [if_pos ⟨by omega, hi⟩]
      rw [e _ hcidx.1, e _ hcidx.2]
      convert this using 1; ring
    · funext i
      simp only [delay, v]
      split
      · ring
      · rfl
  · rintro ⟨v, hv, hs, d, hd, rfl⟩
    refine ⟨d, ?_⟩
    have e : ∀ i, i < n → (assign (delay n v d) n d) (if i = 0 then n else i) = v i + d := by
      intro i hi
      rw [hsh d i hi]
      by_cases h0 : i = 0
      · subst h0; simp [hv.1]
      · simp only [if_neg h0, delay]; rw [if_pos ⟨by omega, hi⟩]; ring
    intro c hc
    simp only [List.mem_cons, List.mem_append, List.mem_map, List.mem_range] at hc
    rcases hc with rfl | ⟨i, hi, rfl⟩ | ⟨a, ⟨b, hb, rfl⟩, rfl⟩
    · unfold Constr.Sat; simp only [Ineq.Sat]
      rw [assign_other _ _ (by omega : 0 ≠ n), assign_same]
      have : delay n v d 0 = 0 := by simp [delay, hv.1]
      rw [this]; simpa using hd
    · unfold Constr.Sat; simp only [Ineq.Sat]
      rw [assign_same, e i hi]
      have := hv.2.1 i
      simp; linarith
    · have := (clampC_sat hv b).mpr (hs b hb)
      unfold Constr.Sat at this ⊢
      simp only
      rw [e _ (by exact hcl _), e _ (by exact hcl _)]
      convert this using 1; ring

def up (a : Fed n) : Fed n := mk (a.zones.map (upConj n))

def downConj (n : Nat) (cs : Conj) : Conj :=
  let sh := fun i => if i = 0 then n else i
  let moved := (cs.map (clampC n)).map fun c => (⟨sh c.i, sh c.j, c.ineq⟩ : Constr)
  elim n (⟨n, 0, .LE 0⟩ :: moved)

theorem downConj_sat (hn : 0 < n) (cs : Conj) (v : Val) (hv : Valid n v) :
    Conj.Sat (downConj n cs) v ↔ ∃ d : ℝ, 0 ≤ d ∧ Conj.Sat cs (delay n v d) := by
  unfold downConj
  simp only
  rw [elim_sat _ _ _ (by omega) hv.1]
  have hcl : ∀ i, clampIdx n i < n := by intro i; unfold clampIdx; split <;> omega
  have e : ∀ (d : ℝ) (i : Nat), i < n → (assign v n (-d)) (if i = 0 then n else i)
      = delay n v d i - d := by
    intro d i hi
    by_cases h : i = 0
    · subst h; simp [delay, hv.1]
    · rw [if_neg h, assign_other _ _ (by omega)]; unfold delay
      rw [if_pos ⟨by omega, hi⟩]; ring
  constructor
  · rintro ⟨x, h⟩
    have hx : x ≤ 0 := by
      have := h ⟨n, 0, .LE 0⟩ (by simp)
      unfold Constr.Sat at this
      simp only [Ineq.Sat] at this
      rw [assign_other _ _ (by omega : 0 ≠ n), hv.1, assign_same] at this
      simpa using this
    refine ⟨-x, by linarith, ?_⟩
    have hvd : Valid n (delay n v (-x)) := delay_valid hv (by linarith)
    rw [← mapClamp_sat hvd]
    intro c hc
    have hcidx : c.i < n ∧ c.j < n := by
      obtain ⟨a, _, rfl⟩ := List.mem_map.mp hc
      exact ⟨hcl _, hcl _⟩
    have := h ⟨if c.i = 0 then n else c.i, if c.j = 0 then n else c.j, c.ineq⟩ (by
      simp only [List.mem_cons]
      exact Or.inr (List.mem_map.mpr ⟨c, hc, rfl⟩))
    unfold Constr.Sat at this ⊢
    simp only at this
    have e1 := e (-x) _ hcidx.1
    have e2 := e (-x) _ hcidx.2
    rw [neg_neg] at e1 e2
    rw [e1, e2] at this
    convert this using 1; ring
  · rintro ⟨d, hd, hs⟩
    refine ⟨-d, ?_⟩
    have hvd : Valid n (delay n v d) := delay_valid hv hd
    intro c hc
    simp only [List.mem_cons, List.mem_map] at hc
    rcases hc with rfl | ⟨a, ⟨b, hb, rfl⟩, rfl⟩
    · unfold Constr.Sat; simp only [Ineq.Sat]
      rw [assign_other _ _ (by omega : 0 ≠ n), assign_same, hv.1]
      simpa using hd
    · have := (clampC_sat hvd b).mpr (hs b hb)
      unfold Constr.Sat at this ⊢
      simp only
      rw [e d _ (by exact hcl _), e d _ (by exact hcl _)]
      convert this using 1; ring

def down (a : Fed n) : Fed n := mk (a.zones.map (downConj n))

def freeConj (n i : Nat) (cs : Conj) : Conj := elim i (⟨0, i, .LE 0⟩ :: cs.map (clampC n))

theorem freeConj_sat (cs : Conj) (w : Val) (hw : Valid n w) (i : Nat) (hi : 0 < i) (hin : i < n) :
    Conj.Sat (freeConj n i cs) w ↔
      ∃ v, Valid n v ∧ Conj.Sat cs v ∧ ∃ x : ℝ, 0 ≤ x ∧ w = assign v i x := by
  unfold freeConj
  rw [elim_sat _ _ _ (by omega) hw.1]
  constructor
  · rintro ⟨x, h⟩
    have hx : 0 ≤ x := by
      have := h ⟨0, i, .LE 0⟩ (by simp)
      unfold Constr.Sat at this
      simp only [Ineq.Sat] at this
      rw [assign_other _ _ (by omega : 0 ≠ i), hw.1, assign_same] at this
      simpa using this
    have hv : Valid n (assign w i x) := assign_valid hw hi hin hx
    refine ⟨assign w i x, hv, ?_, w i, hw.2.1 i, ?_⟩
    · rw [← mapClamp_sat hv]; intro c hc; exact h c (by simp [hc])
    · rw [assign_assign, assign_self]
  · rintro ⟨v, hv, hs, x, hx, rfl⟩
    refine ⟨v i, ?_⟩
    rw [assign_assign, assign_self]
    intro c hc
    rcases List.mem_cons.mp hc with rfl | hc
    · unfold Constr.Sat; simp only [Ineq.Sat]
      have := hv.2.1 i
      rw [hv.1]; simpa using this
    · exact (mapClamp_sat hv cs).mpr hs c hc

def free (a : Fed n) (i : Nat) : Fed n := mk (a.zones.map (freeConj n i))

def constrainEqL (i : Nat) (c : Int) : Conj := [⟨i, 0, .LE c⟩, ⟨0, i, .LE (-c)⟩]

theorem constrainEqL_sat (i : Nat) (c : Int) {v : Val} (hv : Valid n v) :
    Conj.Sat (constrainEqL i c) v ↔ v i = (c : ℝ) := by
  unfold Conj.Sat constrainEqL Constr.Sat
  simp only [List.mem_cons, List.not_mem_nil, or_false, forall_eq_or_imp, forall_eq, Ineq.Sat,
    hv.1, Int.cast_neg]
  constructor
  · rintro ⟨h1, h2⟩; linarith
  · intro h; constructor <;> linarith

def constrainEq (a : Fed n) (i : Nat) (c : Int) : Fed n := mk (a.zones.map (· ++ constrainEqL i c))

def updateClock (a : Fed n) (i : Nat) (c : Int) : Fed n := constrainEq (free a i) i c

theorem den_mapAppend (hn : 0 < n) (a : Fed n) (e : Conj) :
    den (mk (a.zones.map (· ++ e)) : Fed n) = {v | v ∈ den a ∧ Conj.Sat e v} := by
  rw [den_mk hn]
  ext v
  simp only [den, Set.mem_ofPred_eq, Disj.Sat, List.mem_map]
  constructor
  · rintro ⟨hv, c, ⟨x, hx, rfl⟩, hs⟩
    rw [conj_append_sat] at hs
    exact ⟨⟨hv, x, hx, hs.1⟩, hs.2⟩
  · rintro ⟨⟨hv, x, hx, h1⟩, h2⟩
    exact ⟨hv, _, ⟨x, hx, rfl⟩, (conj_append_sat _ _ _).mpr ⟨h1, h2⟩⟩

/-- no upper bound on a real clock -/
def unboundedConj (cs : Conj) : Bool := cs.all fun c => !(decide (c.j = 0) && decide (c.i ≠ 0))

def canDelay (a : Fed n) : Bool :=
  a.zones.any fun cs => unboundedConj (cs.map (clampC n)) && !emptyConj n cs

/-- beyond some delay a bounded conjunction is left -/
theorem bounded_leaves (cs : Conj) (v : Val) (hv : Valid n v)
    (hb : unboundedConj (cs.map (clampC n)) = false) :
    ∃ D : ℝ, ∀ d, D ≤ d → 0 ≤ d → ¬ Conj.Sat cs (delay n v d) := by
  have : ¬ unboundedConj (cs.map (clampC n)) = true := by simp [hb]
  unfold unboundedConj at this
  rw [List.all_eq_true] at this
  push Not at this
  obtain ⟨c, hc, hcb⟩ := this
  have hcb' : c.j = 0 ∧ c.i ≠ 0 := by simpa using hcb
  have hin : c.i < n := by
    obtain ⟨a, _, rfl⟩ := List.mem_map.mp hc
    unfold clampC clampIdx at *
    simp only at *
    by_contra hh
    by_cases h1 : a.i < n
    · simp [h1] at hh
    · simp [h1] at hcb'
  refine ⟨ival c.ineq + 1, ?_⟩
  intro d hd h0 hs
  have hvd := delay_valid hv h0
  have h1 := (mapClamp_sat hvd cs).mpr hs c hc
  unfold Constr.Sat at h1
  rw [hcb'.1, hvd.1] at h1
  have : delay n v d c.i = v c.i + d := by
    unfold delay; rw [if_pos ⟨by omega, hin⟩]
  rw [this] at h1
  have := hv.2.1 c.i
  cases hq : c.ineq <;> simp only [hq, Ineq.Sat, ival] at * <;> linarith

theorem unbounded_stays (cs : Conj) (v : Val) (hv : Valid n v) (d : ℝ) (hd : 0 ≤ d)
    (hb : unboundedConj (cs.map (clampC n)) = true) (hs : Conj.Sat cs v) :
    Conj.Sat cs (delay n v d) := by
  have hvd := delay_valid hv hd
  rw [← mapClamp_sat hvd]
  rw [← mapClamp_sat hv] at hs
  intro c hc
  have h1 := hs c hc
  have hb' := List.all_eq_true.mp hb c hc
  have hcb : c.j = 0 → c.i = 0 := by
    intro hj; by_contra hi; simp [hj, hi] at hb'
  have hidx : ∀ i, i = c.i ∨ i = c.j → i < n ∨ i = 0 := by
    obtain ⟨a, _, rfl⟩ := List.mem_map.mp hc
    unfold clampC clampIdx; simp only
    rintro i (h | h) <;> rw [h] <;> split <;> omega
  have hle : delay n v d c.i - delay n v d c.j ≤ v c.i - v c.j := by
    unfold delay
    by_cases hi : c.i = 0
    · rw [if_neg (by omega)]
      split <;> linarith
    · have hj : c.j ≠ 0 := fun h => hi (hcb h)
      have h1 := hidx c.i (Or.inl rfl)
      have h2 := hidx c.j (Or.inr rfl)
      rw [if_pos ⟨by omega, by omega⟩, if_pos ⟨by omega, by omega⟩]; linarith
  unfold Constr.Sat at h1 ⊢
  cases hq : c.ineq <;> simp only [hq, Ineq.Sat] at * <;> linarith

theorem canDelay_iff' (hn : 0 < n) (z : Fed n) : canDelay z = true ↔
    ∃ v ∈ den z, ∀ d : ℝ, 0 ≤ d → delay n v d ∈ den z := by
  constructor
  · intro h
    obtain ⟨cs, hcs, hb⟩ := List.any_eq_true.mp h
    rw [Bool.and_eq_true] at hb
    have hne : ∃ v, Valid n v ∧ Conj.Sat cs v := by
      by_contra hc
      have := (emptyConj_iff hn cs).mpr hc
      simp [this] at hb
    obtain ⟨v, hv, hs⟩ := hne
    exact ⟨v, ⟨hv, cs, hcs, hs⟩, fun d hd =>
      ⟨delay_valid hv hd, cs, hcs, unbounded_stays cs v hv d hd hb.1 hs⟩⟩
  · rintro ⟨v, ⟨hv, _⟩, h⟩
    have hbig : ∀ L : List Conj, (∀ cs ∈ L, unboundedConj (cs.map (clampC n)) = false) →
        ∃ D : ℝ, 0 ≤ D ∧ ∀ d, D ≤ d → ∀ cs ∈ L, ¬ Conj.Sat cs (delay n v d) := by
      intro L
      induction L with
      | nil => intro _; exact ⟨0, le_refl _, by simp⟩
      | cons c cs ih =>
        intro hL
        obtain ⟨D, hD, h1⟩ := ih fun c hc => hL c (by simp [hc])
        obtain ⟨E, h2⟩ := bounded_leaves c v hv (hL c (by simp))
        refine ⟨max D E, le_max_of_le_left hD, ?_⟩
        intro d hd x hx
        rcases List.mem_cons.mp hx with rfl | hx
        · exact h2 d ((le_max_right D E).trans hd) (hD.trans ((le_max_left D E).trans hd))
        · exact h1 d ((le_max_left D E).trans hd) x hx
    obtain ⟨D, hD, hD'⟩ := hbig (z.zones.filter fun cs => !unboundedConj (cs.map (clampC n))) (by
      intro cs hcs
      have := (List.mem_filter.mp hcs).2
      simpa using this)
    obtain ⟨hvd, cs, hcs, hs⟩ := h D hD
    have hu : unboundedConj (cs.map (clampC n)) = true := by
      by_contra hu
      exact hD' D (le_refl _) cs (List.mem_filter.mpr ⟨hcs, by simpa using hu⟩) hs
    unfold canDelay
    refine List.any_eq_true.mpr ⟨cs, hcs, ?_⟩
    rw [Bool.and_eq_true]
    refine ⟨hu, ?_⟩
    rw [Bool.not_eq_true', ← Bool.not_eq_true, emptyConj_iff hn]
    exact fun hne => hne ⟨_, hvd, hs⟩

def initConj (n : Nat) : Conj :=
  (List.range n).flatMap fun i => (List.range n).filterMap fun j =>
    if 0 < i ∧ 0 < j ∧ i ≠ j then some ⟨i, j, .LE 0⟩ else none

theorem initConj_sat (v : Val) : Conj.Sat (initConj n) v ↔
    ∀ i j, 0 < i → i < n → 0 < j → j < n → v i = v j := by
  unfold initConj Conj.Sat
  simp only [List.mem_flatMap, List.mem_range, List.mem_filterMap]
  constructor
  · intro h i j hi hin hj hjn
    by_cases hij : i = j
    · rw [hij]
    · have h1 := h ⟨i, j, .LE 0⟩ ⟨i, hin, j, hjn, by rw [if_pos ⟨hi, hj, hij⟩]⟩
      have h2 := h ⟨j, i, .LE 0⟩ ⟨j, hjn, i, hin, by rw [if_pos ⟨hj, hi, fun h => hij h.symm⟩]⟩
      simp only [Constr.Sat, Ineq.Sat, Int.cast_zero] at h1 h2
      linarith
  · rintro h c ⟨i, hin, j, hjn, hc⟩
    split at hc
    · rename_i hh
      cases hc
      simp only [Constr.Sat, Ineq.Sat, Int.cast_zero]
      rw [h i j hh.1 hin hh.2.1 hjn]; linarith
    · cases hc

def constrain (a : Fed n) (i j : Nat) (c : Ineq) : Fed n := mk (a.zones.map (· ++ [⟨i, j, c⟩]))

def subtraction (a b : Fed n) : Fed n := inter a (inverse b)

theorem den_inter' (hn : 0 < n) (a b : Fed n) : den (inter a b) = den a ∩ den b := by
  unfold inter
  rw [den_mk hn]
  ext v
  simp only [den, Set.mem_ofPred_eq, Set.mem_inter_iff, disj_prod_sat]
  tauto

theorem den_inverse' (hn : 0 < n) (a : Fed n) :
    den (inverse a) = {v | Valid n v ∧ v ∉ den a} := by
  unfold inverse
  rw [den_mk hn]
  ext v
  simp only [den, Set.mem_ofPred_eq]
  constructor
  · rintro ⟨hv, h⟩
    exact ⟨hv, fun hh => (negDisj_sat hn _ hv).mp h hh.2⟩
  · rintro ⟨hv, h⟩
    exact ⟨hv, (negDisj_sat hn _ hv).mpr fun hh => h ⟨hv, hh⟩⟩

theorem den_subtraction' (hn : 0 < n) (a b : Fed n) :
    den (subtraction a b) = {v | v ∈ den a ∧ v ∉ den b} := by
  unfold subtraction
  rw [den_inter' hn, den_inverse' hn]
  ext v
  simp only [Set.mem_inter_iff, Set.mem_ofPred_eq]
  constructor
  · rintro ⟨h1, _, h2⟩; exact ⟨h1, h2⟩
  · rintro ⟨h1, h2⟩; exact ⟨h1, h1.1, h2⟩

def subsetEq (a b : Fed n) : Bool := isEmpty (subtraction a b)

theorem subsetEq_iff' (hn : 0 < n) (a b : Fed n) : subsetEq a b = true ↔ den a ⊆ den b := by
  unfold subsetEq
  rw [isEmpty_iff' hn, den_subtraction' hn, Set.eq_empty_iff_forall_notMem]
  constructor
  · intro h v hv
    by_contra hb
    exact h v ⟨hv, hb⟩
  · rintro h v ⟨hv, hb⟩; exact hb (h hv)

theorem den_free' (hn : 0 < n) (z : Fed n) (i : Nat) (hi : 0 < i) (hin : i < n) :
    den (free z i) = {w | ∃ v ∈ den z, ∃ x : ℝ, 0 ≤ x ∧ w = assign v i x} := by
  unfold free
  rw [den_mk hn]
  ext w
  simp only [den, Set.mem_ofPred_eq, Disj.Sat, List.mem_map]
  constructor
  · rintro ⟨hw, c, ⟨x, hx, rfl⟩, hs⟩
    obtain ⟨v, hv, hs', y, hy, e⟩ := (freeConj_sat x w hw i hi hin).mp hs
    exact ⟨v, ⟨hv, x, hx, hs'⟩, y, hy, e⟩
  · rintro ⟨v, ⟨hv, x, hx, hs⟩, y, hy, rfl⟩
    have hw := assign_valid hv hi hin hy
    exact ⟨hw, _, ⟨x, hx, rfl⟩, (freeConj_sat x _ hw i hi hin).mpr ⟨v, hv, hs, y, hy, rfl⟩⟩

theorem den_constrainEq' (hn : 0 < n) (z : Fed n) (i : Nat) (c : Int) :
    den (constrainEq z i c) = {v | v ∈ den z ∧ v i = (c : ℝ)} := by
  unfold constrainEq
  rw [den_mapAppend hn]
  ext v
  simp only [Set.mem_ofPred_eq]
  exact and_congr_right fun h => constrainEqL_sat i c h.1

/-- minimal constraints: the normalised satisfiable conjunctions -/
def minimal (z : Fed n) : Disj := clean n z.zones

theorem norm_idx (p : Nat → Prop) (cs : Conj) (h : ∀ c ∈ cs, p c.i ∧ p c.j) :
    ∀ c ∈ norm cs, p c.i ∧ p c.j := by
  unfold norm
  exact foldr_ins_idx p _ fun c hc => h c (List.mem_filter.mp hc).1

theorem clean_idx (hn : 0 < n) (z : List Conj) : Disj.InDim n (clean n z) := by
  intro c hc
  unfold clean at hc
  rw [List.mem_dedup] at hc
  obtain ⟨a, _, rfl⟩ := List.mem_map.mp (List.mem_filter.mp hc).1
  refine norm_idx (fun i => i < n) _ ?_
  intro k hk
  obtain ⟨b, _, rfl⟩ := List.mem_map.mp hk
  unfold clampC clampIdx
  simp only; constructor <;> split <;> omega

theorem ins_nontrivial (c : Constr) (hc : c.i = 0 ∧ c.j = 0 → zeroSat c.ineq = false) : ∀ (cs : Conj),
    (∀ k ∈ cs, k.i = 0 ∧ k.j = 0 → zeroSat k.ineq = false) →
    ∀ k ∈ ins c cs, k.i = 0 ∧ k.j = 0 → zeroSat k.ineq = false
  | [], _, k, hk => by
    have : k = c := by simpa [ins] using hk
    rw [this]; exact hc
  | d :: ds, h, k, hk => by
    unfold ins at hk
    split at hk
    · rcases List.mem_cons.1 hk with rfl | hk
      · intro h0
        have := hc h0
        rw [← Bool.not_eq_true, zeroSat_iff] at this ⊢
        rw [minIneq_sat]
        tauto
      · exact h k (by simp [hk])
    · rcases List.mem_cons.1 hk with rfl | hk
      · exact h k (by simp)
      · exact ins_nontrivial c hc ds (fun k hk => h k (by simp [hk])) k hk

theorem clean_proper (hn : 0 < n) (z : List Conj) : ∀ c ∈ clean n z, ∀ k ∈ c, ¬ (k.i = 0 ∧ k.j = 0) := by
  intro c hc k hk h0
  unfold clean at hc
  rw [List.mem_dedup, List.mem_filter] at hc
  obtain ⟨hc, he⟩ := hc
  rw [Bool.not_eq_true', ← Bool.not_eq_true, emptyConj_iff hn, not_not] at he
  obtain ⟨v, hv, hs⟩ := he
  have h1 : zeroSat k.ineq = true := by
    rw [zeroSat_iff]
    have := hs k hk
    unfold Constr.Sat at this
    rw [h0.1, h0.2, sub_self] at this
    exact this
  obtain ⟨a, _, rfl⟩ := List.mem_map.mp hc
  have key : ∀ (l : Conj), (∀ c ∈ l, c.i = 0 ∧ c.j = 0 → zeroSat c.ineq = false) →
      ∀ c ∈ l.foldr ins [], c.i = 0 ∧ c.j = 0 → zeroSat c.ineq = false := by
    intro l
    induction l with
    | nil => intro _ c hc; cases hc
    | cons x l ih =>
      intro h
      exact ins_nontrivial x (h x (by simp)) _ (ih fun c hc => h c (by simp [hc]))
  have := key _ (fun c hc => ?_) k hk h0
  · rw [this] at h1; cases h1
  · intro h0
    have := (List.mem_filter.1 hc).2
    simp only [trivialC, Bool.not_eq_true', Bool.or_eq_false_iff, h0.1, decide_true, Bool.true_and] at this
    exact this.2

/-! ## Extrapolation -/

/-- A clock without bound is freed; in a conjunction where a clock is above its bound, only that fact is
kept of the clock. -/
def extConj (n i : Nat) (m : Int) (c : Conj) : Conj :=
  if emptyConj n (c ++ [⟨i, 0, .LE m⟩]) then freeConj n i c ++ [⟨0, i, .LS (-m)⟩] else c

def extClock (b : Bounds) (a : Fed n) (i : Nat) : Fed n :=
  match b i with
  | none => free a i
  | some m => mk (a.zones.map (extConj n i m))

def extrapolate (a : Fed n) (b : Bounds) : Fed n :=
  (List.range' 1 (n - 1)).foldl (extClock b) a

theorem above_sat {i : Nat} {m : Int} {v : Val} (hv : Valid n v) :
    Conj.Sat [⟨0, i, .LS (-m)⟩] v ↔ (m : ℝ) < v i := by
  unfold Conj.Sat Constr.Sat
  simp only [List.mem_singleton, forall_eq, Ineq.Sat, hv.1, Int.cast_neg]
  constructor <;> intro h <;> linarith

theorem below_sat {i : Nat} {m : Int} {v : Val} (hv : Valid n v) :
    Conj.Sat [⟨i, 0, .LE m⟩] v ↔ v i ≤ (m : ℝ) := by
  unfold Conj.Sat Constr.Sat
  simp only [List.mem_singleton, forall_eq, Ineq.Sat, hv.1]
  constructor <;> intro h <;> linarith

theorem extConj_sup (hn : 0 < n) {i : Nat} (hi : 0 < i) (hin : i < n) {m : Int} {c : Conj} {v : Val}
    (hv : Valid n v) (h : Conj.Sat c v) : Conj.Sat (extConj n i m c) v := by
  unfold extConj
  split
  · rename_i he
    rw [emptyConj_iff hn] at he
    rw [conj_append_sat, above_sat hv]
    refine ⟨(freeConj_sat c v hv i hi hin).2 ⟨v, hv, h, v i, hv.2.1 i, (assign_self _ _).symm⟩, ?_⟩
    by_contra hb
    exact he ⟨v, hv, (conj_append_sat _ _ _).2 ⟨h, (below_sat hv).2 (not_lt.1 hb)⟩⟩
  · exact h

theorem extConj_equiv (hn : 0 < n) {i : Nat} (hi : 0 < i) (hin : i < n) {b : Bounds} {m : Int}
    (hb : b i = some m) {c : Conj} {v : Val} (hv : Valid n v) (h : Conj.Sat (extConj n i m c) v) :
    ∃ w, Valid n w ∧ Conj.Sat c w ∧ b.Equiv v w := by
  unfold extConj at h
  split at h
  · rename_i he
    rw [emptyConj_iff hn] at he
    rw [conj_append_sat, above_sat hv] at h
    obtain ⟨w, hw, hs, x, hx, rfl⟩ := (freeConj_sat c v hv i hi hin).1 h.1
    refine ⟨w, hw, hs, fun k => ?_⟩
    by_cases hk : k = i
    · subst hk
      right
      intro m' hm'
      rw [hb] at hm'; cases hm'
      refine ⟨h.2, ?_⟩
      by_contra hb
      exact he ⟨w, hw, (conj_append_sat _ _ _).2 ⟨hs, (below_sat hw).2 (not_lt.1 hb)⟩⟩
    · left; exact assign_other _ _ hk
  · exact ⟨v, hv, h, Bounds.Equiv.refl b v⟩

theorem equiv_trans {b : Bounds} {u v w : Val} (h1 : b.Equiv u v) (h2 : b.Equiv v w) : b.Equiv u w := by
  intro i
  rcases h1 i with h1 | h1
  · rw [h1]; exact h2 i
  · rcases h2 i with h2 | h2
    · rw [← h2]; exact .inr h1
    · exact .inr fun m hm => ⟨(h1 m hm).1, (h2 m hm).2⟩

theorem extClock_sup (hn : 0 < n) (b : Bounds) (a : Fed n) {i : Nat} (hi : 0 < i) (hin : i < n) :
    den a ⊆ den (extClock b a i) := by
  intro v hv
  unfold extClock
  split
  · rw [den_free' hn a i hi hin]
    exact ⟨v, hv, v i, hv.1.2.1 i, (assign_self _ _).symm⟩
  · rw [den_mk hn]
    obtain ⟨hv, c, hc, hs⟩ := hv
    exact ⟨hv, _, List.mem_map.2 ⟨c, hc, rfl⟩, extConj_sup hn hi hin hv hs⟩

theorem extClock_equiv (hn : 0 < n) (b : Bounds) (a : Fed n) {i : Nat} (hi : 0 < i) (hin : i < n) {v : Val}
    (h : v ∈ den (extClock b a i)) : ∃ w ∈ den a, b.Equiv v w := by
  unfold extClock at h
  split at h
  · rename_i hb
    rw [den_free' hn a i hi hin] at h
    obtain ⟨w, hw, x, _, rfl⟩ := h
    refine ⟨w, hw, fun k => ?_⟩
    by_cases hk : k = i
    · subst hk; right; intro m hm; rw [hb] at hm; cases hm
    · left; exact assign_other _ _ hk
  · rename_i m hb
    rw [den_mk hn] at h
    obtain ⟨hv, c, hc, hs⟩ := h
    obtain ⟨c', hc', rfl⟩ := List.mem_map.1 hc
    obtain ⟨w, hw, h1, h2⟩ := extConj_equiv hn hi hin hb hv hs
    exact ⟨w, ⟨hw, c', hc', h1⟩, h2⟩

theorem extFold (hn : 0 < n) (b : Bounds) : ∀ (is : List Nat), (∀ i ∈ is, 0 < i ∧ i < n) → ∀ a : Fed n,
    den a ⊆ den (is.foldl (extClock b) a) ∧
      ∀ v ∈ den (is.foldl (extClock b) a), ∃ w ∈ den a, b.Equiv v w := by
  intro is
  induction is with
  | nil => intro _ a; exact ⟨subset_rfl, fun v h => ⟨v, h, Bounds.Equiv.refl b v⟩⟩
  | cons i is ih =>
    intro h a
    obtain ⟨h1, h2⟩ := h i (by simp)
    obtain ⟨h3, h4⟩ := ih (fun i hi => h i (by simp [hi])) (extClock b a i)
    refine ⟨(extClock_sup hn b a h1 h2).trans h3, fun v hv => ?_⟩
    obtain ⟨w, hw, e1⟩ := h4 v hv
    obtain ⟨u, hu, e2⟩ := extClock_equiv hn b a h1 h2 hw
    exact ⟨u, hu, equiv_trans e1 e2⟩

theorem extrapolate_spec (hn : 0 < n) (a : Fed n) (b : Bounds) : den a ⊆ den (extrapolate a b) ∧
    ∀ v ∈ den (extrapolate a b), ∃ w ∈ den a, b.Equiv v w :=
  extFold hn b _ (fun i hi => by rw [List.mem_range'_1] at hi; omega) a

/-- The concrete library of dimension `k + 1` (that is, with `k` clocks). -/
@[reducible] def lib (k : Nat) : ZoneLib (Fed (k + 1)) where
  dim := k + 1
  den := den
  univ := ⟨[[]]⟩
  empty := ⟨[]⟩
  init := mk [initConj (k + 1)]
  inter := inter
  append a b := ⟨(a.zones ++ b.zones).dedup⟩
  inverse := inverse
  subtraction := subtraction
  constrain := constrain
  constrainEq := constrainEq
  updateClock := updateClock
  free := free
  up := up
  down := down
  isEmpty := isEmpty
  isUniverse z := isEmpty (inverse z)
  subsetEq := subsetEq
  equals a b := subsetEq a b && subsetEq b a
  hasIntersection a b := !isEmpty (inter a b)
  canDelayIndefinitely := canDelay
  extrapolate := extrapolate
  minimal := minimal
  fromDisjunction d := mk d
  dim_pos := Nat.succ_pos k
  den_valid h := h.1
  den_univ := by ext v; simp [den, Disj.Sat, Conj.Sat]
  den_empty := by ext v; simp [den, Disj.Sat]
  den_init := by
    rw [den_mk (Nat.succ_pos k)]
    ext v
    simp only [Disj.Sat, List.mem_singleton, exists_eq_left, Set.mem_ofPred_eq, initConj_sat]
  den_inter := den_inter' (Nat.succ_pos k)
  den_append a b := by
    ext v
    simp only [den, Disj.Sat, List.mem_dedup, List.mem_append, Set.mem_union, Set.mem_ofPred_eq]
    constructor
    · rintro ⟨hv, c, hc | hc, hs⟩
      · exact Or.inl ⟨hv, c, hc, hs⟩
      · exact Or.inr ⟨hv, c, hc, hs⟩
    · rintro (⟨hv, c, hc, hs⟩ | ⟨hv, c, hc, hs⟩)
      · exact ⟨hv, c, Or.inl hc, hs⟩
      · exact ⟨hv, c, Or.inr hc, hs⟩
  den_inverse := den_inverse' (Nat.succ_pos k)
  den_subtraction := den_subtraction' (Nat.succ_pos k)
  den_constrain z i j c _ _ := by
    unfold constrain
    rw [den_mapAppend (Nat.succ_pos k)]
    ext v
    simp [Conj.Sat, Constr.Sat]
  den_constrainEq z i c _ _ := den_constrainEq' (Nat.succ_pos k) z i c
  den_updateClock z i c hi hin hc := by
    unfold updateClock
    rw [den_constrainEq' (Nat.succ_pos k), den_free' (Nat.succ_pos k) z i hi hin]
    ext w
    simp only [Set.mem_ofPred_eq]
    constructor
    · rintro ⟨⟨v, hv, x, _, rfl⟩, h⟩
      rw [assign_same] at h
      exact ⟨v, hv, by rw [h]⟩
    · rintro ⟨v, hv, rfl⟩
      exact ⟨⟨v, hv, c, Int.cast_nonneg hc, rfl⟩, assign_same _ _ _⟩
  den_free := den_free' (Nat.succ_pos k)
  den_up z := by
    unfold up
    rw [den_mk (Nat.succ_pos k)]
    ext w
    simp only [den, Set.mem_ofPred_eq, Disj.Sat, List.mem_map]
    constructor
    · rintro ⟨hw, c, ⟨x, hx, rfl⟩, hs⟩
      obtain ⟨v, hv, hs', d, hd, e⟩ := (upConj_sat (Nat.succ_pos k) x w hw).mp hs
      exact ⟨v, ⟨hv, x, hx, hs'⟩, d, hd, e⟩
    · rintro ⟨v, ⟨hv, x, hx, hs⟩, d, hd, rfl⟩
      have hw := delay_valid hv hd
      exact ⟨hw, _, ⟨x, hx, rfl⟩,
        (upConj_sat (Nat.succ_pos k) x _ hw).mpr ⟨v, hv, hs, d, hd, rfl⟩⟩
  den_down z := by
    unfold down
    rw [den_mk (Nat.succ_pos k)]
    ext v
    simp only [den, Set.mem_ofPred_eq, Disj.Sat, List.mem_map]
    constructor
    · rintro ⟨hv, c, ⟨x, hx, rfl⟩, hs⟩
      obtain ⟨d, hd, hs'⟩ := (downConj_sat (Nat.succ_pos k) x v hv).mp hs
      exact ⟨hv, d, hd, delay_valid hv hd, x, hx, hs'⟩
    · rintro ⟨hv, d, hd, _, x, hx, hs⟩
      exact ⟨hv, _, ⟨x, hx, rfl⟩, (downConj_sat (Nat.succ_pos k) x v hv).mpr ⟨d, hd, hs⟩⟩
  isEmpty_iff := isEmpty_iff' (Nat.succ_pos k)
  isUniverse_iff z := by
    rw [isEmpty_iff' (Nat.succ_pos k), den_inverse' (Nat.succ_pos k),
      Set.eq_empty_iff_forall_notMem]
    constructor
    · intro h v hv
      by_contra hb
      exact h v ⟨hv, hb⟩
    · rintro h v ⟨hv, hb⟩; exact hb (h v hv)
  subsetEq_iff := subsetEq_iff' (Nat.succ_pos k)
  equals_iff a b := by
    rw [Bool.and_eq_true, subsetEq_iff' (Nat.succ_pos k), subsetEq_iff' (Nat.succ_pos k)]
    exact ⟨fun h => Set.Subset.antisymm h.1 h.2, fun h => by rw [h]; exact ⟨subset_rfl, subset_rfl⟩⟩
  hasIntersection_iff a b := by
    rw [Bool.not_eq_true', ← Bool.not_eq_true, isEmpty_iff' (Nat.succ_pos k),
      den_inter' (Nat.succ_pos k)]
    rw [← Ne, ← Set.nonempty_iff_ne_empty]
    rfl
  canDelay_iff := canDelay_iff' (Nat.succ_pos k)
  extrapolate_sup z b := (extrapolate_spec (Nat.succ_pos k) z b).1
  extrapolate_equiv z b := (extrapolate_spec (Nat.succ_pos k) z b).2
  den_minimal z := by
    ext v
    simp only [den, Set.mem_ofPred_eq, minimal]
    exact and_congr_right fun hv => clean_sat (Nat.succ_pos k) _ hv
  minimal_inDim z := clean_idx (Nat.succ_pos k) _
  minimal_proper z := clean_proper (Nat.succ_pos k) _
  den_fromDisjunction d _ := den_mk (Nat.succ_pos k) d

end ZoneImpl
end Reveaal
/-! The concrete library is evaluated by the kernel. -/
section Smoke
open Reveaal ZoneImpl
local instance : ZoneLib (Fed 3) := lib 2
example : ZoneLib.isEmpty (ZoneLib.constrain (F := Fed 3) ZoneLib.init 1 2 (.LE (-1))) = true := by
  decide
example : ZoneLib.subsetEq (ZoneLib.up (ZoneLib.updateClock (F := Fed 3) ZoneLib.init 1 0))
    (ZoneLib.constrain ZoneLib.univ 1 2 (.LE 0)) = true := by decide
end Smoke
