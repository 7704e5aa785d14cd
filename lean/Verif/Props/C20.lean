import Verif.Lemmas.Cache
import Mathlib.Data.List.Induction

/-! # C20: what the model cache returns -/

namespace Reveaal
variable {M : Type}

/-- After any sequence of accesses by any users, a lookup returns a model only if the last model stored for
that user was stored under the same hash, and then it is that model. (Models with hash 0 are not stored.) -/
theorem C20_lookup (size : Nat) (c : ModelCache M) (hc : ModelCache.new size = .ok c) (ops : List (CacheOp M))
    (u : Int) (h : Nat) (m : M) (hget : ((c.runAll ops).getModel u h).1 = some m) :
    h ≠ 0 ∧ ∃ before after, ops = before ++ .insert u h m :: after ∧
      ∀ h' m', .insert u h' m' ∈ after → h' = 0 := by
  obtain ⟨hinv, _, hnil⟩ := ModelCache.new_inv hc
  rw [ModelCache.getModel_some (hinv.all ops).1] at hget
  refine ⟨hget.1, ?_⟩
  have hm := hget.2
  clear hget hc
  -- induction from the last operation
  induction ops using List.reverseRecOn with
  | nil => simp [ModelCache.runAll, hnil] at hm
  | append_singleton ops op ih =>
    have hi := (hinv.all ops).1
    rw [ModelCache.runAll_append] at hm
    have keep : (u, (⟨h, m⟩ : ComponentTuple M)) ∈ (c.runAll ops).entries →
        (∀ h' m', op = .insert u h' m' → h' = 0) →
        ∃ before after, ops ++ [op] = before ++ .insert u h m :: after ∧
          ∀ h' m', .insert u h' m' ∈ after → h' = 0 := by
      intro hm hop
      obtain ⟨b, a, rfl, ha⟩ := ih hm
      refine ⟨b, a ++ [op], by simp, fun h' m' hin => ?_⟩
      rcases List.mem_append.1 hin with h1 | h1
      · exact ha h' m' h1
      · exact hop h' m' (List.mem_singleton.1 h1).symm
    simp only [ModelCache.runAll, List.foldl_cons, List.foldl_nil] at hm keep
    cases op with
    | get u' k =>
      simp only [CacheOp.run, ModelCache.getModel] at hm
      refine keep ?_ (by intro h' m' h; cases h)
      split at hm
      · exact hm
      · exact (Lru.mem_get hi.ok).1 hm
    | insert u' k m' =>
      simp only [CacheOp.run, ModelCache.insertModel] at hm
      split at hm
      · rename_i hk
        exact keep hm (by intro h' m'' h; cases h; exact hk)
      · rcases Lru.mem_put hm with h1 | ⟨h1, h2⟩
        · cases h1
          exact ⟨ops, [], by simp, by simp⟩
        · exact keep h1 (by intro h' m'' h; cases h; exact (h2 rfl).elim)

/-- Hash 0 is never served from the cache. -/
theorem C20_hash_zero (c : ModelCache M) (u : Int) : (c.getModel u 0).1 = none := rfl

/-- Right after storing a model, a lookup finds it, and storing answers with the stored model. -/
theorem C20_store (size : Nat) (c : ModelCache M) (hc : ModelCache.new size = .ok c) (ops : List (CacheOp M))
    (u : Int) (h : Nat) (m : M) : ((c.runAll ops).insertModel u h m).1 = m ∧
      (h ≠ 0 → (((c.runAll ops).insertModel u h m).2.getModel u h).1 = some m) := by
  obtain ⟨hinv, _, _⟩ := ModelCache.new_inv hc
  have h1 := (hinv.all ops).1
  constructor
  · unfold ModelCache.insertModel; split <;> rfl
  · intro hk
    have h2 := (h1.step (.insert u h m)).1
    refine (ModelCache.getModel_some h2).2 ⟨hk, ?_⟩
    simp only [CacheOp.run, ModelCache.insertModel, hk, if_false]
    exact Lru.put_self

/-- Two users, and one of them stores twice. -/
example : ∃ c : ModelCache String, ModelCache.new 2 = .ok c ∧
    ((c.runAll [.insert 1 7 "a", .insert 2 7 "b", .insert 1 8 "c", .get 2 7]).getModel 1 8).1 = some "c" ∧
    ((c.runAll [.insert 1 7 "a", .insert 2 7 "b", .insert 1 8 "c", .get 2 7]).getModel 1 7).1 = none ∧
    ((c.runAll [.insert 1 7 "a", .insert 2 7 "b", .insert 1 8 "c", .get 2 7]).getModel 2 7).1 = some "b" :=
  ⟨_, rfl, rfl, rfl, rfl⟩

end Reveaal
