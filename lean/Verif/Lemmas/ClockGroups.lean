import Verif.Lemmas.ClockGraph
import Mathlib.Data.List.Nodup
import Mathlib.Data.List.Perm.Subperm
import Mathlib.Tactic.Tauto

/-! # Groups of equivalent clocks -/

namespace Reveaal
open ZoneLib
namespace ClockGraph

theorem insertInto_mem {key c : Nat} : ∀ {m : List (Nat × List Nat)} {p : Nat × List Nat} {x : Nat},
    p ∈ insertInto key c m → x ∈ p.2 → (p.1 = key ∧ x = c) ∨ ∃ p' ∈ m, p'.1 = p.1 ∧ x ∈ p'.2
  | [], p, x, h, hx => by
    rw [insertInto, List.mem_singleton] at h
    subst h
    exact .inl ⟨rfl, by simpa using hx⟩
  | (k, cs) :: m, p, x, h, hx => by
    rw [insertInto] at h
    split at h
    · rename_i hk
      rcases List.mem_cons.1 h with rfl | h
      · dsimp only at hx ⊢
        split at hx
        · exact .inr ⟨(k, cs), by simp, rfl, hx⟩
        · rcases List.mem_append.1 hx with hx | hx
          · exact .inr ⟨(k, cs), by simp, rfl, hx⟩
          · exact .inl ⟨hk, by simpa using hx⟩
      · exact .inr ⟨p, by simp [h], rfl, hx⟩
    · rcases List.mem_cons.1 h with rfl | h
      · exact .inr ⟨(k, cs), by simp, rfl, hx⟩
      · rcases insertInto_mem h hx with h | ⟨p', hp', h⟩
        · exact .inl h
        · exact .inr ⟨p', by simp [hp'], h⟩

theorem insertAll_mem : ∀ (xs : List (Nat × Nat)) {m : List (Nat × List Nat)} {p : Nat × List Nat} {x : Nat},
    p ∈ xs.foldl (fun m y => insertInto y.1 y.2 m) m → x ∈ p.2 → (p.1, x) ∈ xs ∨ ∃ p' ∈ m, p'.1 = p.1 ∧ x ∈ p'.2
  | [], m, p, x, h, hx => .inr ⟨p, h, rfl, hx⟩
  | y :: xs, m, p, x, h, hx => by
    rcases insertAll_mem xs h hx with h | ⟨p', hp', he, hx'⟩
    · exact .inl (by simp [h])
    · rcases insertInto_mem hp' hx' with ⟨h1, h2⟩ | ⟨p'', hp'', he', hx''⟩
      · exact .inl (by rw [h2, ← he, h1]; simp)
      · exact .inr ⟨p'', hp'', he'.trans he, hx''⟩

/-- The keys and clocks that `splitGroups` inserts. -/
theorem splitGroups_mem {us : List CUpdate} {groups : List (List Nat)} {p : Nat × List Nat} {x : Nat}
    (h : p ∈ splitGroups us groups) (hx : x ∈ p.2) :
    ∃ i cs, groups[i]? = some cs ∧ x ∈ cs ∧ p.1 = groupKey us i x := by
  rcases insertAll_mem _ h hx with h | ⟨p', hp', _⟩
  · obtain ⟨⟨cs, i⟩, h1, h2⟩ := List.mem_flatMap.1 h
    obtain ⟨c, hc, he⟩ := List.mem_map.1 h2
    rw [Prod.mk.injEq] at he
    obtain ⟨h3, rfl⟩ := he
    exact ⟨i, cs, List.mem_zipIdx_iff_getElem?.1 h1, hc, h3.symm⟩
  · cases hp'

theorem insertInto_perm {key c : Nat} : ∀ {m : List (Nat × List Nat)}, c ∉ m.flatMap (·.2) →
    ((insertInto key c m).flatMap (·.2)).Perm (c :: m.flatMap (·.2))
  | [], _ => by simp [insertInto]
  | (k, cs) :: m, h => by
    rw [List.flatMap_cons, List.mem_append, not_or] at h
    rw [insertInto]
    split
    · rw [if_neg h.1, List.flatMap_cons, List.flatMap_cons, List.append_assoc]
      exact List.perm_middle
    · rw [List.flatMap_cons, List.flatMap_cons]
      exact ((insertInto_perm h.2).append_left cs).trans List.perm_middle

theorem insertAll_perm : ∀ (xs : List (Nat × Nat)) {m : List (Nat × List Nat)},
    (m.flatMap (·.2) ++ xs.map (·.2)).Nodup →
    ((xs.foldl (fun m y => insertInto y.1 y.2 m) m).flatMap (·.2)).Perm (m.flatMap (·.2) ++ xs.map (·.2))
  | [], m, _ => by simp
  | y :: xs, m, h => by
    have hp : (m.flatMap (·.2) ++ (y :: xs).map (·.2)).Perm (y.2 :: m.flatMap (·.2) ++ xs.map (·.2)) := by
      rw [List.map_cons]; exact List.perm_middle
    have hn := hp.nodup_iff.1 h
    have hy : y.2 ∉ m.flatMap (·.2) := by
      rw [List.cons_append, List.nodup_cons, List.mem_append, not_or] at hn
      exact hn.1.1
    have hq := insertInto_perm (key := y.1) hy
    have := insertAll_perm xs (m := insertInto y.1 y.2 m) ((hq.append_right _).nodup_iff.2 hn)
    rw [List.foldl_cons]
    exact this.trans ((hq.append_right _).trans hp.symm)

theorem zipIdx_flat (us : List CUpdate) : ∀ (groups : List (List Nat)) (k : Nat),
    ((groups.zipIdx k).flatMap fun p => p.1.map fun c => (groupKey us p.2 c, c)).map (·.2) = groups.flatten
  | [], _ => rfl
  | g :: gs, k => by
    rw [List.zipIdx_cons, List.flatMap_cons, List.map_append, zipIdx_flat us gs (k + 1), List.flatten_cons]
    congr 1
    rw [List.map_map]
    exact List.map_id' g

theorem splitGroups_perm {us : List CUpdate} {groups : List (List Nat)} (h : groups.flatten.Nodup) :
    ((splitGroups us groups).flatMap (·.2)).Perm groups.flatten := by
  have := insertAll_perm (groups.zipIdx.flatMap fun p => p.1.map fun c => (groupKey us p.2 c, c)) (m := [])
    (by rw [zipIdx_flat]; simpa using h)
  rw [zipIdx_flat] at this
  exact this

/-- The groups have more than one clock each and have no clock in common. -/
structure GoodGroups (used : List Nat) (groups : List (List Nat)) : Prop where
  nodup : groups.flatten.Nodup
  used : ∀ c ∈ groups.flatten, c ∈ used
  big : ∀ g ∈ groups, 1 < g.length

theorem length_le_flatten : ∀ {groups : List (List Nat)}, (∀ g ∈ groups, 1 < g.length) →
    groups.length ≤ groups.flatten.length
  | [], _ => by simp
  | g :: gs, h => by
    have h1 := h g (by simp)
    have h2 := length_le_flatten (groups := gs) fun g' hg => h g' (by simp [hg])
    rw [List.flatten_cons, List.length_append, List.length_cons]
    omega

theorem GoodGroups.length {used : List Nat} {groups : List (List Nat)} (h : GoodGroups used groups) :
    groups.length ≤ used.length :=
  (length_le_flatten h.big).trans (List.subperm_of_subset h.nodup h.used).length_le

theorem sublist_flatten {a b : List (List Nat)} (h : a.Sublist b) : a.flatten.Sublist b.flatten := by
  induction h with
  | slnil => exact List.Sublist.refl _
  | cons g _ ih => rw [List.flatten_cons]; exact ih.trans (List.sublist_append_right _ _)
  | cons_cons g _ ih => rw [List.flatten_cons, List.flatten_cons]; exact ih.append_left g

theorem step_flatten_sublist (ord : HashOrder) (k : Nat) (m : List (Nat × List Nat)) :
    ∃ l, (((ord.order k m).map (·.2)).filter fun cs => decide (1 < cs.length)).flatten.Sublist l ∧
      l.Perm (m.flatMap (·.2)) :=
  ⟨((ord.order k m).map (·.2)).flatten, sublist_flatten List.filter_sublist, by
    rw [List.flatMap_def]; exact ((ord.perm k m).map _).flatten⟩

/-- One step of the refinement keeps the groups good, and the clocks of a new group come from one key. -/
theorem refine_step {ord : HashOrder} {k : Nat} {us : List CUpdate} {used : List Nat} {groups : List (List Nat)}
    (h : GoodGroups used groups) :
    GoodGroups used (((ord.order k (splitGroups us groups)).map (·.2)).filter fun cs => decide (1 < cs.length)) ∧
    ∀ g ∈ ((ord.order k (splitGroups us groups)).map (·.2)).filter (fun cs => decide (1 < cs.length)),
      ∃ key, (key, g) ∈ splitGroups us groups := by
  obtain ⟨l, h1, h2⟩ := step_flatten_sublist ord k (splitGroups us groups)
  have h3 := h2.trans (splitGroups_perm (us := us) h.nodup)
  refine ⟨⟨h1.nodup (h3.nodup_iff.2 h.nodup), fun c hc => h.used c (h3.mem_iff.1 (h1.subset hc)), fun g hg => ?_⟩,
    fun g hg => ?_⟩
  · simpa using (List.mem_filter.1 hg).2
  · obtain ⟨p, hp, rfl⟩ := List.mem_map.1 (List.mem_filter.1 hg).1
    exact ⟨p.1, (ord.perm _ _).mem_iff.1 hp⟩

theorem assigned_le : ∀ (us : List CUpdate) {m : List (Nat × Nat)} {c v : Nat},
    (∀ c v, m.lookup c = some v → v ≤ u32max) →
    (us.foldl (fun m u => hmInsert u.clock (u.value % 4294967296).toNat m) m).lookup c = some v → v ≤ u32max
  | [], _, c, v, hm, h => hm c v h
  | u :: us, m, c, v, hm, h => by
    refine assigned_le us (m := hmInsert u.clock (u.value % 4294967296).toNat m) ?_ h
    intro c v hv
    rw [lookup_hmInsert] at hv
    split at hv
    · cases hv
      have := Int.emod_lt_of_pos u.value (show (0 : Int) < 4294967296 by decide)
      unfold u32max
      omega
    · exact hm c v hv

/-- Clocks with the same key come from the same group and are assigned the same. -/
theorem groupKey_inj {us : List CUpdate} {i j x y n : Nat} (hi : i < n) (hj : j < n) (hn : n ≤ u32max)
    (h : groupKey us i x = groupKey us j y) :
    i = j ∧ (assigned us).lookup x = (assigned us).lookup y := by
  have key : ∀ {c v}, (assigned us).lookup c = some v → v ≤ u32max :=
    fun hv => assigned_le us (m := []) (by simp) hv
  unfold groupKey at h
  cases hx : (assigned us).lookup x with
  | none =>
    rw [hx] at h
    cases hy : (assigned us).lookup y with
    | none => rw [hy] at h; exact ⟨h, rfl⟩
    | some w =>
      rw [hy] at h
      have : 0 ≤ j * (u32max * 2) := Nat.zero_le _
      dsimp only at h
      omega
  | some v =>
    rw [hx] at h
    have hv := key hx
    cases hy : (assigned us).lookup y with
    | none =>
      rw [hy] at h
      have : 0 ≤ i * (u32max * 2) := Nat.zero_le _
      dsimp only at h
      omega
    | some w =>
      rw [hy] at h
      have hw := key hy
      dsimp only at h
      have hM : u32max = 4294967295 := rfl
      rw [hM] at h hv hw
      have : i = j := by omega
      subst this
      exact ⟨rfl, by rw [show v = w by omega]⟩

/-- All clocks of a group are assigned the same by all edges. -/
def SameUpdates (es : List ClockEdge) (groups : List (List Nat)) : Prop :=
  ∀ e ∈ es, ∀ g ∈ groups, ∀ x ∈ g, ∀ y ∈ g, (assigned e.updates).lookup x = (assigned e.updates).lookup y

theorem refineGroups_spec {ord : HashOrder} {used : List Nat} (hu : used.length ≤ u32max) :
    ∀ (es done : List ClockEdge) (k : Nat) {groups : List (List Nat)}, GoodGroups used groups →
      SameUpdates done groups →
      GoodGroups used (refineGroups ord es k groups) ∧ SameUpdates (done ++ es) (refineGroups ord es k groups)
  | [], done, k, groups, h, hs => by simpa [refineGroups] using ⟨h, hs⟩
  | e :: es, done, k, groups, h, hs => by
    obtain ⟨h1, h2⟩ := refine_step (ord := ord) (k := k) (us := e.updates) h
    have hs' : SameUpdates (done ++ [e])
        (((ord.order k (splitGroups e.updates groups)).map (·.2)).filter fun cs => decide (1 < cs.length)) := by
      intro e' he' g hg x hx y hy
      obtain ⟨key, hkey⟩ := h2 g hg
      obtain ⟨i, cs, a1, a2, a3⟩ := splitGroups_mem hkey hx
      obtain ⟨j, ds, b1, b2, b3⟩ := splitGroups_mem hkey hy
      have hi := (List.getElem?_eq_some_iff.1 a1).1
      have hj := (List.getElem?_eq_some_iff.1 b1).1
      obtain ⟨rfl, hl⟩ := groupKey_inj hi hj (h.length.trans hu) (a3.symm.trans b3)
      rw [a1] at b1; cases b1
      rcases List.mem_append.1 he' with he' | he'
      · exact hs e' he' cs (List.mem_of_getElem? a1) x a2 y b2
      · rw [List.mem_singleton] at he'; subst he'; exact hl
    have := refineGroups_spec (ord := ord) hu es (done ++ [e]) (k + 1) h1 hs'
    rw [List.append_assoc] at this
    exact this

theorem equivalentGroups_spec {ord : HashOrder} {g : ClockGraph} {used : List Nat} (hu : used.length ≤ u32max)
    (hn : used.Nodup) : GoodGroups used (g.equivalentGroups ord used) ∧
      SameUpdates g.edges (g.equivalentGroups ord used) := by
  unfold equivalentGroups
  split
  · exact ⟨⟨by simp, by simp, by simp⟩, fun e _ x hx => by cases hx⟩
  · rename_i hc
    simp only [Bool.or_eq_true, decide_eq_true_eq, not_or] at hc
    refine refineGroups_spec hu g.edges [] 2 ⟨by simpa using hn, by simp, fun x hx => ?_⟩ (fun e he => by cases he)
    rw [List.mem_singleton] at hx; subst hx; omega

theorem usedClocks_spec (ord : HashOrder) (g : ClockGraph) : (g.usedClocks ord).Nodup ∧
    ∀ c, c ∈ g.usedClocks ord ↔ c ≠ 0 ∧ ((∃ e ∈ g.edges, c ∈ e.deps) ∨ ∃ p ∈ g.nodes, c ∈ p.2.deps) := by
  unfold usedClocks
  refine ⟨(ord.perm 0 _).nodup_iff.2 (List.nodup_dedup _), fun c => ?_⟩
  rw [(ord.perm 0 _).mem_iff, List.mem_dedup, List.mem_filter, List.mem_append, List.mem_flatMap, List.mem_flatMap]
  simp only [decide_not, Bool.not_eq_eq_eq_not, Bool.not_true, decide_eq_false_iff_not]
  exact and_comm

theorem minimum_mem : ∀ {cs : List Nat}, cs ≠ [] → minimum cs ∈ cs ∧ ∀ c ∈ cs, minimum cs ≤ c := by
  have key : ∀ (cs : List Nat) (c : Nat), (cs.foldl min c ∈ c :: cs) ∧ ∀ x ∈ c :: cs, cs.foldl min c ≤ x := by
    intro cs
    induction cs with
    | nil => intro c; simp
    | cons d cs ih =>
      intro c
      obtain ⟨h1, h2⟩ := ih (min c d)
      rw [List.foldl_cons]
      refine ⟨?_, fun x hx => ?_⟩
      · rcases List.mem_cons.1 h1 with h1 | h1
        · rw [h1]
          rcases le_total c d with h | h
          · rw [min_eq_left h]; simp
          · rw [min_eq_right h]; simp
        · simp [h1]
      · have h3 := h2 (min c d) (by simp)
        rcases List.mem_cons.1 hx with rfl | hx
        · exact h3.trans (min_le_left _ _)
        · rcases List.mem_cons.1 hx with rfl | hx
          · exact h3.trans (min_le_right _ _)
          · exact h2 x (by simp [hx])
  intro cs h
  cases cs with
  | nil => exact absurd rfl h
  | cons c cs => exact key cs c

end ClockGraph

/-! ## Values of clocks -/

/-- After updates with `i32` values a clock has the value assigned last, or its old one. -/
theorem runUpdates_lookup : ∀ (us : List CUpdate) (v v0 : Val) (m : List (Nat × Nat)) (x : Nat),
    (∀ u ∈ us, 0 ≤ u.value ∧ u.value < 2147483648) →
    (v x = match m.lookup x with | some n => (n : ℝ) | none => v0 x) →
    runUpdates us v x =
      match (us.foldl (fun m u => hmInsert u.clock (u.value % 4294967296).toNat m) m).lookup x with
      | some n => (n : ℝ) | none => v0 x
  | [], v, v0, m, x, _, h => h
  | u :: us, v, v0, m, x, hu, h => by
    rw [runUpdates, List.foldl_cons]
    refine runUpdates_lookup us _ v0 _ x (fun u' hu' => hu u' (by simp [hu'])) ?_
    rw [lookup_hmInsert]
    by_cases hx : x = u.clock
    · rw [if_pos hx, hx, assign_same]
      obtain ⟨h1, h2⟩ := hu u (by simp)
      have h3 : u.value % 4294967296 = u.value := Int.emod_eq_of_lt h1 (by omega)
      rw [h3]
      dsimp only
      have h4 : ((u.value.toNat : Int) : ℝ) = (u.value : ℝ) := by rw [Int.toNat_of_nonneg h1]
      rw [← h4, Int.cast_natCast]
    · rw [if_neg hx, assign_other _ _ hx]
      exact h

end Reveaal
