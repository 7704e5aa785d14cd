import Verif.Lemmas.Cache

/-! # C21: the capacity of the model cache, and what it keeps -/

namespace Reveaal
variable {M : Type}

/-- A cache of size `n` never serves more than `n` users. -/
theorem C21_capacity (size : Nat) (c : ModelCache M) (hc : ModelCache.new size = .ok c)
    (ops : List (CacheOp M)) (users : List Int) (hn : users.Nodup)
    (hs : ∀ u ∈ users, ∃ h m, ((c.runAll ops).getModel u h).1 = some m) : users.length ≤ size := by
  obtain ⟨hinv, hcap, _⟩ := ModelCache.new_inv hc
  obtain ⟨hi, hcap'⟩ := hinv.all ops
  have hsub : users ⊆ (c.runAll ops).entries.map (·.1) := by
    intro u hu
    obtain ⟨h, m, hg⟩ := hs u hu
    rw [ModelCache.getModel_some hi] at hg
    exact List.mem_map.2 ⟨_, hg.2, rfl⟩
  have := (List.subperm_of_subset hn hsub).length_le
  rw [List.length_map] at this
  have := hi.size
  omega

/-- The number of entries never exceeds the capacity, and the capacity never changes. -/
theorem C21_entries (size : Nat) (c : ModelCache M) (hc : ModelCache.new size = .ok c)
    (ops : List (CacheOp M)) : (c.runAll ops).entries.length ≤ size ∧ (c.runAll ops).cap = size := by
  obtain ⟨hinv, hcap, _⟩ := ModelCache.new_inv hc
  obtain ⟨hi, hcap'⟩ := hinv.all ops
  have := hi.size
  exact ⟨by omega, by omega⟩

theorem young_ops {c : ModelCache M} (hinv : c.Inv) {u : Int} {e : ComponentTuple M} {others : List Int}
    (hlt : others.length < c.cap) (hu : u ∉ others) {ops : List (CacheOp M)}
    (hops : ∀ op ∈ ops, op.hash = 0 ∨ op.user ∈ others) (hy : Lru.Young c.entries u e others) :
    Lru.Young (c.runAll ops).entries u e others := by
  unfold ModelCache.runAll
  induction ops generalizing c with
  | nil => exact hy
  | cons op ops ih =>
    rw [List.foldl_cons]
    obtain ⟨h1, h2⟩ := hinv.step op
    refine ih h1 (by omega) (fun o ho => hops o (List.mem_cons_of_mem _ ho)) ?_
    have hop := hops op (List.mem_cons_self ..)
    cases op with
    | get u' k =>
      simp only [CacheOp.run, ModelCache.getModel]
      split
      · exact hy
      · rename_i hk
        have := hop.resolve_left hk
        exact hy.get this (fun h => hu (h ▸ this))
    | insert u' k m =>
      simp only [CacheOp.run, ModelCache.insertModel]
      split
      · exact hy
      · rename_i hk
        have := hop.resolve_left hk
        exact hy.put hinv.ok hlt this (fun h => hu (h ▸ this)) _

/-- An entry survives as long as fewer users than the capacity, apart from its own user, use the cache
after its own user's last access (`op`: a store or a lookup, with a hash). -/
theorem C21_survival (size : Nat) (c : ModelCache M) (hc : ModelCache.new size = .ok c)
    (before after : List (CacheOp M)) (op : CacheOp M) (hop : op.hash ≠ 0) (others : List Int)
    (hlt : others.length < size) (hu : op.user ∉ others)
    (hafter : ∀ o ∈ after, o.hash = 0 ∨ o.user ∈ others) (h : Nat) (m : M)
    (hget : ((c.runAll (before ++ [op])).getModel op.user h).1 = some m) :
    ((c.runAll (before ++ op :: after)).getModel op.user h).1 = some m := by
  obtain ⟨hinv, hcap, _⟩ := ModelCache.new_inv hc
  obtain ⟨hi, hcapb⟩ := hinv.all before
  obtain ⟨hi1, hcap1⟩ := hinv.all (before ++ [op])
  obtain ⟨hi2, hcap2⟩ := hinv.all (before ++ op :: after)
  rw [ModelCache.getModel_some hi1] at hget
  rw [ModelCache.getModel_some hi2]
  refine ⟨hget.1, ?_⟩
  have hy : Lru.Young (c.runAll (before ++ [op])).entries op.user ⟨h, m⟩ others := by
    have hm := hget.2
    rw [ModelCache.runAll_append] at hm ⊢
    simp only [ModelCache.runAll, List.foldl_cons, List.foldl_nil] at hm ⊢
    cases op with
    | get u k =>
      simp only [CacheOp.run, CacheOp.hash, CacheOp.user, ModelCache.getModel] at hm hop ⊢
      rw [if_neg hop] at hm ⊢
      refine Lru.Young.of_get ?_ others
      have hm := (Lru.mem_get hi.ok).1 hm
      rw [← Lru.lookup_some_iff hi.ok] at hm
      simp only [ModelCache.runAll] at hm
      rw [Lru.get, hm]
    | insert u k m' =>
      simp only [CacheOp.run, CacheOp.hash, CacheOp.user, ModelCache.insertModel] at hm hop ⊢
      rw [if_neg hop] at hm ⊢
      rcases Lru.mem_put hm with h1 | ⟨_, h2⟩
      · cases h1; exact Lru.Young.of_put ..
      · exact (h2 rfl).elim
  have : before ++ op :: after = (before ++ [op]) ++ after := by simp
  rw [this, ModelCache.runAll_append]
  exact (young_ops hi1 (by omega) hu hafter hy).mem

/-- The bound on the number of other users is needed: with one more of them the entry is gone. -/
example : ∃ c : ModelCache String, ModelCache.new 2 = .ok c ∧
    ((c.runAll [.insert 1 7 "a", .insert 2 7 "b"]).getModel 1 7).1 = some "a" ∧
    ((c.runAll [.insert 1 7 "a", .insert 2 7 "b", .insert 3 7 "c"]).getModel 1 7).1 = none ∧
    ((c.runAll [.insert 1 7 "a", .insert 2 7 "b", .get 1 9, .insert 3 7 "c"]).getModel 1 7).1 = some "a" :=
  ⟨_, rfl, rfl, rfl, rfl⟩

end Reveaal
