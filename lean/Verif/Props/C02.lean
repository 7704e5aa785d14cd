import Verif.Lemmas.ExprDim
import Verif.Props.C01

/-!
# C02: the Boolean structure of guards is set algebra

Unlike C01 this holds for *all* guards: whatever set of valuations each comparison selects, the
Boolean operations combine those sets as they should, independently of the set the guard is applied
to.
-/

namespace Reveaal
open ZoneLib Arith

variable {F : Type} [ZoneLib F]

/-- The valuations selected by one comparison, as the code reads it. -/
def cmpSet (d : Decls) (l r : Arith) (mk : Int → Ineq) : Set Val :=
  {v | ∀ i j c, getIndices d l r = .ok (i, j, c) → (mk c).Sat (v i - v j)}

/-- The valuations selected by a guard. -/
def codeSet (d : Decls) : BoolE → Set Val
  | .and l r => codeSet d l ∩ codeSet d r
  | .or l r => codeSet d l ∪ codeSet d r
  | .le l r => cmpSet d l r .LE
  | .ge l r => cmpSet d r l .LE
  | .lt l r => cmpSet d l r .LS
  | .gt l r => cmpSet d r l .LS
  | .eq l r => {v | ∀ i j c, getIndices d l r = .ok (i, j, c) → v i - v j = c}
  | .bool b => {_v | b = true}

theorem apply_codeSet (d : Decls) (hd : d.InDim (dim F)) (g : BoolE) :
    ∀ (z z' : F), g.InDim (dim F) → applyConstraints d g z = .ok z' →
      den z' = den z ∩ codeSet d g := by
  have empty : ∀ (g : BoolE) (z z' : F), isEmpty z = true → applyConstraints d g z = .ok z' →
      den z' = den z ∩ codeSet d g := by
    intro g z z' hz h
    rw [apply_of_empty hz] at h
    cases h
    rw [ZoneLib.isEmpty_iff] at hz
    rw [hz]; simp
  have cmp : ∀ (l r : Arith) (mk : Int → Ineq) (z z' : F), l.InDim (dim F) → r.InDim (dim F) →
      (do let (i, j, c) ← getIndices d l r; (.ok (constrain z i j (mk c)) : Res F)) = .ok z' →
      den z' = den z ∩ cmpSet d l r mk := by
    intro l r mk z z' hl hr h
    cases hg : getIndices d l r with
    | error e => rw [hg] at h; cases h
    | ok p =>
      obtain ⟨i, j, c⟩ := p
      rw [hg] at h; cases h
      have := getIndices_inDim dim_pos hd hl hr _ hg
      rw [den_constrain _ _ _ _ this.1 this.2]
      ext v
      simp only [cmpSet, hg, Set.mem_inter_iff, Set.mem_ofPred_eq, Except.ok.injEq, Prod.mk.injEq]
      constructor
      · rintro ⟨h1, h2⟩; exact ⟨h1, by rintro _ _ _ ⟨rfl, rfl, rfl⟩; exact h2⟩
      · rintro ⟨h1, h2⟩; exact ⟨h1, h2 _ _ _ ⟨rfl, rfl, rfl⟩⟩
  induction g with
  | and l r ihl ihr =>
    intro z z' hg h
    by_cases hz : isEmpty z = true
    · exact empty _ z z' hz h
    · simp only [applyConstraints, if_neg hz] at h
      cases h1 : applyConstraints d l z with
      | error e => rw [h1] at h; cases h
      | ok z1 =>
        rw [h1] at h
        rw [ihr z1 z' hg.2 h, ihl z z1 hg.1 h1, codeSet, Set.inter_assoc]
  | or l r ihl ihr =>
    intro z z' hg h
    by_cases hz : isEmpty z = true
    · exact empty _ z z' hz h
    · simp only [applyConstraints, if_neg hz] at h
      cases h1 : applyConstraints d l z with
      | error e => rw [h1] at h; cases h
      | ok z1 =>
        cases h2 : applyConstraints d r z with
        | error e => rw [h1, h2] at h; cases h
        | ok z2 =>
          rw [h1, h2] at h
          cases h
          rw [den_append, ihr z z2 hg.2 h2, ihl z z1 hg.1 h1, codeSet, Set.inter_union_distrib_left]
  | le l r | ge l r | lt l r | gt l r =>
    intro z z' hg h
    by_cases hz : isEmpty z = true
    · exact empty _ z z' hz h
    · simp only [applyConstraints, if_neg hz] at h
      first | exact cmp _ _ _ _ _ hg.1 hg.2 h | exact cmp _ _ _ _ _ hg.2 hg.1 h
  | eq l r =>
    intro z z' hg h
    by_cases hz : isEmpty z = true
    · exact empty _ z z' hz h
    · simp only [applyConstraints, if_neg hz] at h
      cases hi : getIndices d l r with
      | error e => rw [hi] at h; cases h
      | ok p =>
        obtain ⟨i, j, c⟩ := p
        have hdim := getIndices_inDim dim_pos hd hg.1 hg.2 _ hi
        rw [hi] at h
        rcases chk_ovf (-c) with ⟨c', hc, rfl⟩ | hc
        · simp only [bind, Except.bind, hc] at h
          cases h
          rw [den_constrain _ _ _ _ hdim.2 hdim.1, den_constrain _ _ _ _ hdim.1 hdim.2]
          ext v
          simp only [codeSet, hi, Set.mem_inter_iff, Set.mem_ofPred_eq, Except.ok.injEq, Prod.mk.injEq,
            Ineq.Sat, Int.cast_neg]
          constructor
          · rintro ⟨⟨h1, h2⟩, h3⟩
            exact ⟨h1, by rintro _ _ _ ⟨rfl, rfl, rfl⟩; linarith⟩
          · rintro ⟨h1, h2⟩
            have := h2 _ _ _ ⟨rfl, rfl, rfl⟩
            exact ⟨⟨h1, by linarith⟩, by linarith⟩
        · simp only [bind, Except.bind, hc] at h
          cases h
  | bool b =>
    intro z z' hg h
    by_cases hz : isEmpty z = true
    · exact empty _ z z' hz h
    · simp only [applyConstraints, if_neg hz] at h
      cases b
      · cases h; rw [den_empty]; ext v; simp [codeSet]
      · cases h; ext v; simp [codeSet]

/-- **C02**: there is one assignment of sets of valuations to guards such that `&&` is intersection,
`||` is union, `true` everything and `false` nothing, and applying any accepted guard to any set of
valuations intersects the set with the guard's set. -/
theorem C02_boolean_structure (d : Decls) (hd : d.InDim (dim F)) :
    ∃ S : BoolE → Set Val,
      (∀ l r, S (.and l r) = S l ∩ S r) ∧ (∀ l r, S (.or l r) = S l ∪ S r) ∧
      S (.bool true) = Set.univ ∧ S (.bool false) = ∅ ∧
      ∀ (g : BoolE) (z z' : F), g.InDim (dim F) → applyConstraints d g z = .ok z' →
        den z' = den z ∩ S g :=
  ⟨codeSet d, fun _ _ => rfl, fun _ _ => rfl, by ext; simp [codeSet], by ext; simp [codeSet],
    fun g z z' hg h => apply_codeSet d hd g z z' hg h⟩

/-- **C02**: the same in terms of results only, for any two accepted guards. -/
theorem C02_results (d : Decls) (hd : d.InDim (dim F)) (l r : BoolE) (hl : l.InDim (dim F))
    (hr : r.InDim (dim F)) (z a b : F) (ha : applyConstraints d l z = .ok a)
    (hb : applyConstraints d r z = .ok b) :
    den a ⊆ den z ∧
    (∃ c, applyConstraints d (.or l r) z = .ok c ∧ den c = den a ∪ den b) ∧
    (∀ c, applyConstraints d (.and l r) z = .ok c → den c = den a ∩ den b) ∧
    (∀ c, applyConstraints d (.and r l) z = .ok c → den c = den a ∩ den b) ∧
    (∃ c, applyConstraints d (.bool true) z = .ok c ∧ den c = den z) ∧
    (∃ c, applyConstraints d (.bool false) z = .ok c ∧ den c = ∅) := by
  have h1 := apply_codeSet d hd l z a hl ha
  have h2 := apply_codeSet d hd r z b hr hb
  refine ⟨by rw [h1]; exact Set.inter_subset_left, ?_, ?_, ?_, ?_, ?_⟩
  · by_cases hz : isEmpty z = true
    · refine ⟨z, apply_of_empty hz, ?_⟩
      rw [ZoneLib.isEmpty_iff] at hz
      rw [h1, h2, hz]; simp
    · exact ⟨append a b, by simp only [applyConstraints, if_neg hz, ha, hb]; rfl, den_append _ _⟩
  · intro c hc
    rw [apply_codeSet d hd (.and l r) z c ⟨hl, hr⟩ hc, h1, h2, codeSet]
    ext v; simp only [Set.mem_inter_iff]; tauto
  · intro c hc
    rw [apply_codeSet d hd (.and r l) z c ⟨hr, hl⟩ hc, h1, h2, codeSet]
    ext v; simp only [Set.mem_inter_iff]; tauto
  · refine ⟨z, ?_, rfl⟩
    simp only [applyConstraints]; split <;> rfl
  · by_cases hz : isEmpty z = true
    · exact ⟨z, apply_of_empty hz, (ZoneLib.isEmpty_iff z).mp hz⟩
    · exact ⟨ZoneLib.empty, by simp [applyConstraints, hz], den_empty⟩

/-- The hypotheses are met, also by a guard outside the fragment of C01 (`x - 3 - 2 <= y`). -/
example :
    let d : Decls := ⟨[], [("x", 1), ("y", 2)]⟩
    let l : BoolE := .le (.dif (.dif (.var "x") (.int 3)) (.int 2)) (.var "y")
    let r : BoolE := .gt (.var "x") (.int 1)
    letI := ZoneImpl.lib 2
    d.InDim 3 ∧ l.InDim 3 ∧ r.InDim 3 ∧
      (∃ a : ZoneImpl.Fed 3, applyConstraints d l univ = .ok a) ∧
      (∃ b : ZoneImpl.Fed 3, applyConstraints d r univ = .ok b) := by
  intro d l r
  let _ := ZoneImpl.lib 2
  refine ⟨by simp [d, Decls.ClocksIn], by simp [l, BoolE.ClocksIn, Arith.ClocksIn], by simp [r, BoolE.ClocksIn, Arith.ClocksIn],
    ⟨constrain univ 1 2 (.LE 1), ?_⟩, ⟨constrain univ 0 1 (.LS (-1)), ?_⟩⟩
  · have : getIndices d (.dif (.dif (.var "x") (.int 3)) (.int 2)) (.var "y") = .ok (1, 2, 1) := by decide
    simp only [l, applyConstraints, if_neg univ_nonempty, this]; rfl
  · have : getIndices d (.int 1) (.var "x") = .ok (0, 1, -1) := by decide
    simp only [r, applyConstraints, if_neg univ_nonempty, this]; rfl

end Reveaal
