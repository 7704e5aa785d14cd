import Verif.Model.Cache
import Mathlib.Data.List.Dedup
import Mathlib.Data.List.Perm.Subperm

/-! # Lemmas about the model cache -/

namespace Reveaal

namespace Lru
variable {V : Type}

/-- No key occurs twice. -/
def Ok (es : Lru V) : Prop := (es.map (·.1)).Nodup

theorem lookup_some_iff {es : Lru V} (h : Ok es) {k : Int} {v : V} : es.lookup k = some v ↔ (k, v) ∈ es := by
  induction es with
  | nil => simp
  | cons e es ih =>
    obtain ⟨k', v'⟩ := e
    have h' : Ok es := (List.nodup_cons.1 h).2
    have hn : k' ∉ es.map (·.1) := (List.nodup_cons.1 h).1
    by_cases hk : k = k'
    · subst hk
      rw [List.lookup_cons_self]
      constructor
      · intro h; cases h; simp
      · intro h
        rcases List.mem_cons.1 h with h | h
        · cases h; rfl
        · exact (hn (List.mem_map.2 ⟨_, h, rfl⟩)).elim
    · rw [List.lookup_cons, (by simpa using hk : (k == k') = false), ih h']
      simp [hk]

theorem lookup_none_iff {es : Lru V} {k : Int} : es.lookup k = none ↔ k ∉ es.map (·.1) := by
  induction es with
  | nil => simp
  | cons e es ih =>
    obtain ⟨k', v'⟩ := e
    by_cases hk : k = k'
    · subst hk; simp
    · rw [List.lookup_cons, (by simpa using hk : (k == k') = false), ih]
      simp [hk]

theorem ok_move {es : Lru V} (h : Ok es) (k : Int) (v : V) :
    Ok ((k, v) :: es.filter fun e => e.1 ≠ k) := by
  unfold Ok at *
  rw [List.map_cons, List.nodup_cons]
  refine ⟨?_, (List.Sublist.map _ List.filter_sublist).nodup h⟩
  simp

theorem length_move {es : Lru V} (h : Ok es) {k : Int} {v w : V} (hk : es.lookup k = some w) :
    ((k, v) :: es.filter fun e => e.1 ≠ k).length = es.length := by
  induction es with
  | nil => cases hk
  | cons e es ih =>
    obtain ⟨k', v'⟩ := e
    have h' : Ok es := (List.nodup_cons.1 h).2
    have hn : k' ∉ es.map (·.1) := (List.nodup_cons.1 h).1
    by_cases hk' : k = k'
    · subst hk'
      have : (es.filter fun e => e.1 ≠ k) = es := by
        rw [List.filter_eq_self]
        intro e he
        have : e.1 ≠ k := fun hh => hn (hh ▸ List.mem_map.2 ⟨e, he, rfl⟩)
        simpa using this
      rw [List.filter_cons]
      simp only [ne_eq, not_true_eq_false, decide_false, Bool.false_eq_true, if_false, List.length_cons]
      rw [this]
    · rw [List.lookup_cons, (by simpa using hk' : (k == k') = false)] at hk
      have := ih h' hk
      rw [List.filter_cons]
      have hd : (decide (k' ≠ k)) = true := by simpa using fun hh => hk' hh.symm
      simp only [hd, if_true, List.length_cons] at this ⊢
      omega

/-! ### Invariants of the operations -/

theorem ok_get {es : Lru V} (h : Ok es) (k : Int) : Ok (es.get k).2 := by
  unfold get
  split
  · exact ok_move h k _
  · exact h

theorem ok_put {es : Lru V} (h : Ok es) (cap : Nat) (k : Int) (v : V) : Ok (es.put cap k v) := by
  unfold put
  split
  · exact ok_move h k _
  · rename_i hn
    rw [lookup_none_iff] at hn
    split
    · refine List.nodup_cons.2 ⟨fun hm => hn ?_, (List.Sublist.map _ (List.dropLast_sublist _)).nodup h⟩
      exact (List.Sublist.map _ (List.dropLast_sublist _)).subset hm
    · exact List.nodup_cons.2 ⟨hn, h⟩

theorem length_get {es : Lru V} (h : Ok es) (k : Int) : (es.get k).2.length = es.length := by
  unfold get
  split
  · rename_i hk; exact length_move h hk
  · rfl

theorem length_put {es : Lru V} (h : Ok es) {cap : Nat} (hc : 0 < cap) (hl : es.length ≤ cap) (k : Int)
    (v : V) : (es.put cap k v).length ≤ cap := by
  unfold put
  split
  · rename_i hk; rw [length_move h hk]; exact hl
  · split
    · rw [List.length_cons, List.length_dropLast]; omega
    · rw [List.length_cons]; omega

theorem mem_move {es : Lru V} {k : Int} {v : V} {e : Int × V} :
    e ∈ ((k, v) :: es.filter fun e => e.1 ≠ k) ↔ e = (k, v) ∨ e ∈ es ∧ e.1 ≠ k := by
  simp [List.mem_filter]

theorem mem_get {es : Lru V} (h : Ok es) {k : Int} {e : Int × V} : e ∈ (es.get k).2 ↔ e ∈ es := by
  unfold get
  split
  · rename_i v hk
    rw [mem_move]
    rw [lookup_some_iff h] at hk
    constructor
    · rintro (rfl | h)
      · exact hk
      · exact h.1
    · intro he
      by_cases hek : e.1 = k
      · left
        obtain ⟨k', v'⟩ := e
        cases hek
        rw [← lookup_some_iff h] at hk he
        rw [hk] at he; cases he; rfl
      · exact .inr ⟨he, hek⟩
  · rfl

theorem mem_put {es : Lru V} {cap : Nat} {k : Int} {v : V} {e : Int × V}
    (he : e ∈ es.put cap k v) : e = (k, v) ∨ e ∈ es ∧ e.1 ≠ k := by
  unfold put at he
  split at he
  · exact mem_move.1 he
  · rename_i hn
    rw [lookup_none_iff] at hn
    have key : ∀ {e : Int × V}, e ∈ es → e.1 ≠ k := fun {e} h1 h2 => hn (h2 ▸ List.mem_map.2 ⟨e, h1, rfl⟩)
    split at he <;> rcases List.mem_cons.1 he with rfl | he
    · exact .inl rfl
    · have := (List.dropLast_sublist _).subset he
      exact .inr ⟨this, key this⟩
    · exact .inl rfl
    · exact .inr ⟨he, key he⟩

theorem put_self {es : Lru V} {cap : Nat} {k : Int} {v : V} : (k, v) ∈ es.put cap k v := by
  unfold put
  split
  · simp
  · split <;> simp

/-! ### Age of an entry -/

/-- The entry is there, and the entries used after it belong to the given users. -/
def Young (es : Lru V) (k : Int) (v : V) (others : List Int) : Prop :=
  ∃ newer older, es = newer ++ (k, v) :: older ∧ ∀ e ∈ newer, e.1 ∈ others

theorem Young.mem {es : Lru V} {k : Int} {v : V} {others : List Int} (h : Young es k v others) :
    (k, v) ∈ es := by
  obtain ⟨a, b, rfl, _⟩ := h; simp

theorem Young.move {es : Lru V} {k : Int} {v : V} {others : List Int} (h : Young es k v others) {k' : Int}
    (hk : k' ∈ others) (hne : k' ≠ k) (v' : V) :
    Young ((k', v') :: es.filter fun e => e.1 ≠ k') k v others := by
  obtain ⟨a, b, rfl, ha⟩ := h
  refine ⟨(k', v') :: a.filter (fun e => e.1 ≠ k'), b.filter fun e => e.1 ≠ k', ?_, ?_⟩
  · rw [List.filter_append, List.filter_cons]
    have : (decide (k ≠ k')) = true := by simpa using fun h => hne h.symm
    simp only [this, if_true, List.cons_append]
  · intro e he
    rcases List.mem_cons.1 he with rfl | he
    · exact hk
    · exact ha e (List.mem_filter.1 he).1

theorem Young.get {es : Lru V} {k : Int} {v : V} {others : List Int} (h : Young es k v others) {k' : Int}
    (hk : k' ∈ others) (hne : k' ≠ k) : Young (es.get k').2 k v others := by
  unfold Lru.get
  split
  · exact h.move hk hne _
  · exact h

theorem Young.put {es : Lru V} {k : Int} {v : V} {others : List Int} (h : Young es k v others)
    (hok : Ok es) {cap : Nat} (hlt : others.length < cap) {k' : Int} (hk : k' ∈ others) (hne : k' ≠ k)
    (v' : V) : Young (es.put cap k' v') k v others := by
  unfold Lru.put
  split
  · exact h.move hk hne _
  · rename_i hn
    rw [lookup_none_iff] at hn
    obtain ⟨a, b, rfl, ha⟩ := h
    split
    · rename_i hfull
      have hb : b ≠ [] := by
        rintro rfl
        -- then all others, and the new one, are among `others`
        have hnd : (k' :: a.map (·.1)).Nodup := by
          refine List.nodup_cons.2 ⟨fun hm => hn ?_, ?_⟩
          · rw [List.map_append]; exact List.mem_append_left _ hm
          · unfold Ok at hok
            rw [List.map_append] at hok
            exact (List.nodup_append.1 hok).1
        have hsub : (k' :: a.map (·.1)) ⊆ others := by
          intro x hx
          rcases List.mem_cons.1 hx with rfl | hx
          · exact hk
          · obtain ⟨e, he, rfl⟩ := List.mem_map.1 hx
            exact ha e he
        have := (List.subperm_of_subset hnd hsub).length_le
        simp only [List.length_cons, List.length_map, List.length_append, List.length_nil] at this hfull
        omega
      refine ⟨(k', v') :: a, b.dropLast, ?_, ?_⟩
      · rw [List.cons_append, List.dropLast_append_of_ne_nil (by simp)]
        congr 2
        cases b with
        | nil => exact (hb rfl).elim
        | cons e b => rfl
      · intro e he
        rcases List.mem_cons.1 he with rfl | he
        · exact hk
        · exact ha e he
    · refine ⟨(k', v') :: a, b, rfl, ?_⟩
      intro e he
      rcases List.mem_cons.1 he with rfl | he
      · exact hk
      · exact ha e he

theorem Young.of_get {es : Lru V} {k : Int} {v : V} (h : (es.get k).1 = some v) (others : List Int) :
    Young (es.get k).2 k v others := by
  unfold Lru.get at h ⊢
  split at h
  · rename_i w hw
    cases h
    exact ⟨[], _, rfl, by simp⟩
  · cases h

theorem Young.of_put (es : Lru V) (cap : Nat) (k : Int) (v : V) (others : List Int) :
    Young (es.put cap k v) k v others := by
  unfold Lru.put
  split
  · exact ⟨[], _, rfl, by simp⟩
  · split
    · exact ⟨[], _, rfl, by simp⟩
    · exact ⟨[], _, rfl, by simp⟩

end Lru

namespace ModelCache
variable {M : Type}

/-- What every operation preserves. -/
structure Inv (c : ModelCache M) : Prop where
  pos : 0 < c.cap
  ok : Lru.Ok c.entries
  size : c.entries.length ≤ c.cap

theorem Inv.step {c : ModelCache M} (h : c.Inv) (op : CacheOp M) : (op.run c).Inv ∧ (op.run c).cap = c.cap := by
  cases op with
  | get u k =>
    simp only [CacheOp.run, getModel]
    split
    · exact ⟨h, rfl⟩
    · exact ⟨⟨h.pos, Lru.ok_get h.ok u, (Lru.length_get h.ok u).le.trans h.size⟩, rfl⟩
  | insert u k m =>
    simp only [CacheOp.run, insertModel]
    split
    · exact ⟨h, rfl⟩
    · exact ⟨⟨h.pos, Lru.ok_put h.ok _ u _, Lru.length_put h.ok h.pos h.size u _⟩, rfl⟩

theorem Inv.all {c : ModelCache M} (h : c.Inv) (ops : List (CacheOp M)) :
    (c.runAll ops).Inv ∧ (c.runAll ops).cap = c.cap := by
  unfold runAll
  induction ops generalizing c with
  | nil => exact ⟨h, rfl⟩
  | cons op ops ih =>
    rw [List.foldl_cons]
    obtain ⟨h1, h2⟩ := h.step op
    obtain ⟨h3, h4⟩ := ih h1
    exact ⟨h3, h4.trans h2⟩

theorem new_inv {n : Nat} {c : ModelCache M} (h : new n = .ok c) : c.Inv ∧ c.cap = n ∧ c.entries = [] := by
  unfold new at h
  split at h
  · cases h
  · cases h
    exact ⟨⟨by show 0 < n; omega, List.nodup_nil, Nat.zero_le _⟩, rfl, rfl⟩

theorem getModel_some {c : ModelCache M} (h : c.Inv) {u : Int} {k : Nat} {m : M} :
    (c.getModel u k).1 = some m ↔ k ≠ 0 ∧ (u, ⟨k, m⟩) ∈ c.entries := by
  unfold getModel
  split
  · rename_i hk; simp [hk]
  · rename_i hk
    unfold Lru.get
    cases hl : List.lookup u c.entries with
    | none =>
      simp only [false_iff, not_and, reduceCtorEq]
      intro _ hm
      rw [Lru.lookup_none_iff] at hl
      exact hl (List.mem_map.2 ⟨_, hm, rfl⟩)
    | some e =>
      have he := (Lru.lookup_some_iff h.ok).1 hl
      simp only [ne_eq, hk, not_false_eq_true, true_and]
      split
      · rename_i hh
        constructor
        · intro h'; cases h'; subst hh; exact he
        · intro hm
          rw [← Lru.lookup_some_iff h.ok, hl] at hm
          cases hm; rfl
      · rename_i hh
        simp only [reduceCtorEq, false_iff]
        intro hm
        rw [← Lru.lookup_some_iff h.ok, hl] at hm
        cases hm; exact hh rfl

theorem runAll_append (c : ModelCache M) (a b : List (CacheOp M)) :
    c.runAll (a ++ b) = (c.runAll a).runAll b := List.foldl_append

end ModelCache
end Reveaal
