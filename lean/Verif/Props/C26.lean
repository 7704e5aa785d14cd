import Verif.Props.C23
import Verif.Model.ClockReduction
import Mathlib.Data.List.Sort

/-! # C26: the renumbering of clocks is a faithful compression -/

namespace Reveaal

/-- The state of the loop: the keys seen so far, mapped in order onto `1, …, index - 1`. -/
structure Compressing (seen : List (Nat × Nat)) (index : Nat) : Prop where
  pos : 1 ≤ index
  mono : ∀ x y a b, seen.lookup x = some a → seen.lookup y = some b → x < y → a < b
  range : ∀ k, (∃ x, seen.lookup x = some k) ↔ 1 ≤ k ∧ k < index

theorem compressLoop_spec : ∀ (cs : List Nat) (seen : List (Nat × Nat)) (index : Nat), Compressing seen index →
    cs.Pairwise (· ≤ ·) → (∀ x a, seen.lookup x = some a → ∀ c ∈ cs, x ≤ c) →
    ∃ n, Compressing (compressLoop cs seen index) n ∧
      ∀ x, (∃ a, (compressLoop cs seen index).lookup x = some a) ↔ x ∈ cs ∨ ∃ a, seen.lookup x = some a
  | [], seen, index, h, _, _ => ⟨index, h, fun x => by simp [compressLoop]⟩
  | c :: cs, seen, index, h, hs, hle => by
    obtain ⟨hc, hs⟩ := List.pairwise_cons.1 hs
    unfold compressLoop
    cases hl : seen.lookup c with
    | some a =>
      obtain ⟨n, h1, h2⟩ := compressLoop_spec cs seen index h hs
        fun x b hx d hd => hle x b hx d (List.mem_cons_of_mem _ hd)
      refine ⟨n, h1, fun x => (h2 x).trans ⟨?_, ?_⟩⟩
      · rintro (hx | hx)
        · exact .inl (List.mem_cons_of_mem _ hx)
        · exact .inr hx
      · rintro (hx | hx)
        · rcases List.mem_cons.1 hx with rfl | hx
          · exact .inr ⟨a, hl⟩
          · exact .inl hx
        · exact .inr hx
    | none =>
      have hlt : ∀ x a, seen.lookup x = some a → x < c := by
        intro x a hx
        rcases lt_or_eq_of_le (hle x a hx c List.mem_cons_self) with h | h
        · exact h
        · rw [h, hl] at hx; cases hx
      have hlk : ∀ x, (hmInsert c index seen).lookup x = if x = c then some index else seen.lookup x := by
        intro x; rw [lookup_hmInsert]
      have hval : ∀ x a, seen.lookup x = some a → a < index := fun x a hx => ((h.range a).1 ⟨x, hx⟩).2
      have h' : Compressing (hmInsert c index seen) (index + 1) := by
        refine ⟨by omega, fun x y a b hx hy hxy => ?_, fun k => ⟨?_, ?_⟩⟩
        · rw [hlk] at hx hy
          split at hx
          · next e =>
            split at hy
            · omega
            · have := hlt y b hy; omega
          · split at hy
            · cases hy; exact hval x a hx
            · exact h.mono x y a b hx hy hxy
        · rintro ⟨x, hx⟩
          rw [hlk] at hx
          split at hx
          · cases hx; exact ⟨h.pos, by omega⟩
          · obtain ⟨h1, h2⟩ := (h.range k).1 ⟨x, hx⟩
            exact ⟨h1, by omega⟩
        · rintro ⟨h1, h2⟩
          by_cases hk : k = index
          · exact ⟨c, by rw [hlk, if_pos rfl, hk]⟩
          · obtain ⟨x, hx⟩ := (h.range k).2 ⟨h1, by omega⟩
            have := hlt x k hx
            exact ⟨x, by rw [hlk, if_neg (by omega)]; exact hx⟩
      obtain ⟨n, h1, h2⟩ := compressLoop_spec cs _ _ h' hs (by
        intro x b hx d hd
        rw [hlk] at hx
        split at hx
        · next e => rw [e]; exact hc d hd
        · exact hle x b hx d (List.mem_cons_of_mem _ hd))
      refine ⟨n, h1, fun x => (h2 x).trans ?_⟩
      rw [hlk]
      by_cases e : x = c
      · simp [e]
      · simp [e]

theorem compressMap_spec (clocks : List Nat) : ∃ n, Compressing (compressMap clocks) n ∧
    ∀ x, (∃ a, (compressMap clocks).lookup x = some a) ↔ x ∈ clocks := by
  have hp : (clocks.insertionSort (· ≤ ·)).Perm clocks := List.perm_insertionSort _ _
  have hsort : (clocks.insertionSort (· ≤ ·)).Pairwise (· ≤ ·) := List.pairwise_insertionSort _ _
  obtain ⟨n, h1, h2⟩ := compressLoop_spec _ [] 1
    ⟨le_refl _, fun x y a b h => (by cases h), fun k => ⟨(by rintro ⟨x, hx⟩; cases hx), fun h => by omega⟩⟩ hsort
    (fun x a h => by cases h)
  refine ⟨n, h1, fun x => (h2 x).trans ?_⟩
  simp [hp.mem_iff]

theorem mapComponents_congr {f g : Component → Component} : ∀ (r : Recipe), (∀ c ∈ r.components, f c = g c) →
    r.mapComponents f = r.mapComponents g
  | .composition l r, h | .conjunction l r, h | .quotient l r _, h => by
    unfold Recipe.mapComponents
    rw [mapComponents_congr l fun c hc => h c (List.mem_append_left _ hc),
      mapComponents_congr r fun c hc => h c (List.mem_append_right _ hc)]
  | .component c i, h => by
    unfold Recipe.mapComponents
    rw [h c (by simp [Recipe.components])]

/-- The component with its clocks renumbered by `f` and nothing else changed. -/
def Component.withClocks (f : Nat → Nat) (c : Component) : Component :=
  { c with decls := { c.decls with clocks := c.decls.clocks.map fun p => (p.1, f p.2) } }

/-- **C26**: renumbering the clocks of the components of any number of recipes applies one function to all clock
indices and changes nothing else; the function preserves the order of the indices (so that different indices stay
different and equal ones stay equal) and the new indices are exactly `1, …, n`. -/
theorem C26_compression (rs : List Recipe) : ∃ (f : Nat → Nat) (n : Nat),
    compressDecls rs = rs.map (·.mapComponents (·.withClocks f)) ∧
    (∀ x ∈ rs.flatMap Recipe.clockIndices, ∀ y ∈ rs.flatMap Recipe.clockIndices,
      (f x < f y ↔ x < y) ∧ (f x = f y ↔ x = y)) ∧
    ∀ k, (∃ x ∈ rs.flatMap Recipe.clockIndices, f x = k) ↔ 1 ≤ k ∧ k ≤ n := by
  obtain ⟨n, h1, h2⟩ := compressMap_spec (rs.flatMap Recipe.allClocks)
  have hf : ∀ x ∈ rs.flatMap Recipe.clockIndices, ∀ b, ((compressMap (rs.flatMap Recipe.allClocks)).lookup x).getD x = b ↔
      (compressMap (rs.flatMap Recipe.allClocks)).lookup x = some b := by
    intro x hx b
    obtain ⟨a, ha⟩ := (h2 x).2 hx
    rw [ha]; simp
  have hmono : ∀ x ∈ rs.flatMap Recipe.clockIndices, ∀ y ∈ rs.flatMap Recipe.clockIndices, x < y →
      ((compressMap (rs.flatMap Recipe.allClocks)).lookup x).getD x <
      ((compressMap (rs.flatMap Recipe.allClocks)).lookup y).getD y := fun x hx y hy =>
    h1.mono x y _ _ ((hf x hx _).1 rfl) ((hf y hy _).1 rfl)
  refine ⟨fun x => ((compressMap (rs.flatMap Recipe.allClocks)).lookup x).getD x, n - 1, rfl,
    fun x hx y hy => ?_, fun k => ⟨?_, fun hk => ?_⟩⟩
  · have h3 := hmono x hx y hy
    have h4 := hmono y hy x hx
    rcases lt_trichotomy x y with h | h | h
    · have := h3 h; dsimp only; omega
    · subst h; simp
    · have := h4 h; dsimp only; omega
  · rintro ⟨x, hx, he⟩
    have := (h1.range k).1 ⟨x, (hf x hx k).1 he⟩
    omega
  · obtain ⟨x, hx⟩ := (h1.range k).2 ⟨hk.1, by omega⟩
    have hm : x ∈ rs.flatMap Recipe.clockIndices := (h2 x).1 ⟨k, hx⟩
    exact ⟨x, hm, (hf x hm k).2 hx⟩

/-- Two components with gaps between their indices and one shared index. -/
example : compressDecls
    [.component ⟨"A", ⟨[], [("x", 7), ("y", 3)]⟩, [], []⟩ none, .component ⟨"B", ⟨[], [("z", 7), ("w", 5)]⟩, [], []⟩ none] =
    [.component ⟨"A", ⟨[], [("x", 3), ("y", 1)]⟩, [], []⟩ none,
     .component ⟨"B", ⟨[], [("z", 3), ("w", 2)]⟩, [], []⟩ none] := by
  decide +kernel

end Reveaal
