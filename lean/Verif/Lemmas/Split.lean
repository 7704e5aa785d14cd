import Verif.Model.Recipe

/-! # Splitting texts at a separator -/

namespace Reveaal

theorem splitOnChar_ne_nil (sep : Char) : ∀ l : List Char, splitOnChar sep l ≠ []
  | [] => by simp [splitOnChar]
  | x :: xs => by
    rw [splitOnChar]
    split
    · simp
    · split <;> simp

/-- A text without the separator is one piece. -/
theorem splitOnChar_single {sep : Char} : ∀ {l : List Char}, sep ∉ l → splitOnChar sep l = [l]
  | [], _ => rfl
  | x :: xs, h => by
    have hx : ¬ x = sep := fun e => h (e ▸ List.mem_cons_self)
    rw [splitOnChar, if_neg hx,
      splitOnChar_single (fun hm => h (List.mem_cons_of_mem _ hm))]

/-- A separator separates. -/
theorem splitOnChar_append {sep : Char} (b : List Char) : ∀ a : List Char,
    splitOnChar sep (a ++ sep :: b) = splitOnChar sep a ++ splitOnChar sep b
  | [] => by simp [splitOnChar]
  | x :: xs => by
    have ih := splitOnChar_append (sep := sep) b xs
    rw [List.cons_append, splitOnChar, splitOnChar, ih]
    split
    · rfl
    · cases h : splitOnChar sep xs with
      | nil => exact absurd h (splitOnChar_ne_nil _ _)
      | cons w ws => rfl

/-- No piece contains the separator, and every piece is made of characters of the text. -/
theorem splitOnChar_mem {sep : Char} : ∀ {l w : List Char}, w ∈ splitOnChar sep l → sep ∉ w ∧ ∀ x ∈ w, x ∈ l
  | [], w, h => by
    rw [splitOnChar, List.mem_singleton] at h
    subst h
    simp
  | x :: xs, w, h => by
    have ih := @splitOnChar_mem sep xs
    rw [splitOnChar] at h
    split at h
    · rcases List.mem_cons.1 h with h | h
      · subst h; simp
      · obtain ⟨h1, h2⟩ := ih h
        exact ⟨h1, fun y hy => List.mem_cons_of_mem _ (h2 y hy)⟩
    · rename_i hx
      cases hs : splitOnChar sep xs with
      | nil => exact absurd hs (splitOnChar_ne_nil _ _)
      | cons v vs =>
        rw [hs] at h ih
        rcases List.mem_cons.1 h with h | h
        · subst h
          obtain ⟨h1, h2⟩ := ih List.mem_cons_self
          refine ⟨fun hm => ?_, fun y hy => ?_⟩
          · rcases List.mem_cons.1 hm with e | hm
            · exact hx e.symm
            · exact h1 hm
          · rcases List.mem_cons.1 hy with e | hy
            · exact e ▸ List.mem_cons_self
            · exact List.mem_cons_of_mem _ (h2 y hy)
        · obtain ⟨h1, h2⟩ := ih (List.mem_cons_of_mem _ h)
          exact ⟨h1, fun y hy => List.mem_cons_of_mem _ (h2 y hy)⟩

end Reveaal
