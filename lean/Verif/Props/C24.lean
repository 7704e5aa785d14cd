import Verif.Lemmas.ClockGroups
import Verif.Examples

/-! # C24: clocks merged by clock reduction are equal in every reachable state -/

namespace Reveaal
open ZoneLib ClockGraph
variable {F : Type} [ZoneLib F]

/-- What is used when the redundant clocks are read off the graph. -/
theorem redundant_groups {s : Sys F} (hs : s.Accepted) (hdim : dim F ≤ 4294967295) {ord : HashOrder}
    {acts : List String} {fuel : Nat} {g : ClockGraph} (h : analysisGraph s.ts acts fuel = .ok g) :
    GoodGroups (g.usedClocks ord) (g.equivalentGroups ord (g.usedClocks ord)) ∧
      SameUpdates g.edges (g.equivalentGroups ord (g.usedClocks ord)) ∧
      ∀ c ∈ g.usedClocks ord, 0 < c ∧ c < dim F := by
  obtain ⟨h1, h2⟩ := usedClocks_spec ord g
  obtain ⟨h3, h4⟩ := graph_deps hs.good h
  have hlt : ∀ c ∈ g.usedClocks ord, 0 < c ∧ c < dim F := by
    intro c hc
    obtain ⟨h0, h5⟩ := (h2 c).1 hc
    refine ⟨by omega, ?_⟩
    rcases h5 with ⟨e, he, hc⟩ | ⟨p, hp, hc⟩
    · exact h3 e he c hc
    · exact h4 p hp c hc
  have hlen : (g.usedClocks ord).length ≤ u32max := by
    have := (List.subperm_of_subset h1 (l₂ := List.range (dim F))
      fun c hc => List.mem_range.2 (hlt c hc).2).length_le
    rw [List.length_range] at this
    exact this.trans hdim
  obtain ⟨h5, h6⟩ := equivalentGroups_spec (ord := ord) (g := g) hlen h1
  exact ⟨h5, h6, hlt⟩

/-- **C24** (partial): in every accepted system whose location names contain no brackets or operator characters,
whatever the iteration orders of hash sets, whenever the reduction asks to replace clocks `cs` by the clock `c`,
all of them have the same value in every state the system can get into.  Missing: odd location names, for which
it is false (`C24_violated_names`).  (The two size assumptions are those of the number types of the code.) -/
theorem C24_equal_clocks_partial (s : Sys F) (hs : s.Accepted) (hnames : s.CleanNames) (h32 : s.I32Updates)
    (hdim : dim F ≤ 4294967295) (ord : HashOrder) (acts : List String) (hacts : s.ts.IsActions acts) (fuel : Nat)
    (ins : List ClockInstr) (h : findRedundantClocks ord s.ts acts fuel = .ok ins) (c : Nat) (cs : List Nat)
    (hc : .replace c cs ∈ ins) (l : LocTree F) (v : Val) (hr : s.ts.Reach l v) :
    ∀ i ∈ cs, v i = v c := by
  obtain ⟨g, hg, h⟩ := bind_ok h
  cases h
  obtain ⟨hgood, hsame, hlt⟩ := redundant_groups hs hdim (ord := ord) hg
  -- the group
  unfold redundancies at hc
  obtain ⟨grp, hgrp, he⟩ : ∃ grp ∈ g.equivalentGroups ord (g.usedClocks ord),
      ClockInstr.replace (minimum grp) (grp.erase (minimum grp)) = .replace c cs := by
    rcases List.mem_append.1 hc with hc | hc
    · obtain ⟨x, _, hx⟩ := List.mem_map.1 hc; cases hx
    · obtain ⟨grp, hgrp, hx⟩ := List.mem_map.1 hc
      exact ⟨grp, hgrp, hx⟩
  cases he
  have hne : grp ≠ [] := by
    intro h0
    have := hgood.big grp hgrp
    rw [h0] at this; simp at this
  have hmin := (minimum_mem hne).1
  have hin : ∀ x ∈ grp, 0 < x ∧ x < dim F :=
    fun x hx => hlt x (hgood.used x (List.mem_flatten.2 ⟨grp, hgrp, hx⟩))
  -- all clocks of the group are always equal
  have key : ∀ x ∈ grp, ∀ y ∈ grp, v x = v y := by
    intro x hx y hy
    induction hr with
    | init _ _ => rfl
    | @act l v a l' v' hreach hst ih =>
      have hcov := graph_covers hs hnames hacts hg (Sys.linked_of_reach hreach)
      obtain ⟨ha, trans, hn, t, ht, _, rfl, rfl⟩ := hst
      obtain ⟨trans', h8, h9⟩ := hs.good.next _ _ hcov.loc ha
      have hn' : s.next l a = .ok trans := hn
      rw [h8] at hn'; cases hn'
      have hup : ∀ u ∈ t.updates, 0 ≤ u.value ∧ u.value < 2147483648 :=
        fun u hu => ⟨((h9 t ht).2.upd u hu).2.2, Sys.next_updates s h32 h8 t ht u hu⟩
      have he := hsame _ (hcov.edge a _ t ha hn ht) grp hgrp x hx y hy
      rw [runUpdates_lookup t.updates v v [] x hup rfl, runUpdates_lookup t.updates v v [] y hup rfl]
      have he : (t.updates.foldl (fun m u => hmInsert u.clock (u.value % 4294967296).toNat m) []).lookup x =
          (t.updates.foldl (fun m u => hmInsert u.clock (u.value % 4294967296).toNat m) []).lookup y := he
      rw [he]
      cases (t.updates.foldl (fun m u => hmInsert u.clock (u.value % 4294967296).toNat m) []).lookup y with
      | none => exact ih
      | some n => rfl
    | delay _ _ ih =>
      unfold delay
      rw [if_pos (hin x hx), if_pos (hin y hy), ih]
  intro i hi
  exact key i (List.mem_of_mem_erase hi) _ hmin

/-- The clocks that an instruction takes away. -/
def ClockInstr.gone : ClockInstr → List Nat
  | .remove c => [c]
  | .replace _ cs => cs

theorem flatten_mins : ∀ {groups : List (List Nat)}, (∀ x ∈ groups, x ≠ []) →
    groups.flatten.Perm (groups.map minimum ++ groups.flatMap fun cs => cs.erase (minimum cs))
  | [], _ => by simp
  | x :: xs, h => by
    have h1 := List.perm_cons_erase (minimum_mem (h x (by simp))).1
    have h2 := flatten_mins (groups := xs) fun y hy => h y (by simp [hy])
    rw [List.flatten_cons, List.map_cons, List.flatMap_cons, List.cons_append]
    refine (h1.append h2).trans ?_
    rw [List.cons_append]
    refine List.Perm.cons _ ?_
    rw [← List.append_assoc, ← List.append_assoc]
    exact List.Perm.append_right _ List.perm_append_comm

/-- The instructions do not interfere: no clock is taken away twice, all of them are clocks of the query, a clock
that replaces others is smaller than these and is not itself taken away, and `clocks_removed_count` counts the
clocks that are taken away. -/
theorem C24_instructions (s : Sys F) (hs : s.Accepted) (hdim : dim F ≤ 4294967295) (ord : HashOrder)
    (acts : List String) (fuel : Nat) (ins : List ClockInstr)
    (h : findRedundantClocks ord s.ts acts fuel = .ok ins) :
    (ins.flatMap ClockInstr.gone).Nodup ∧ (∀ c ∈ ins.flatMap ClockInstr.gone, 0 < c ∧ c < dim F) ∧
    (∀ c cs, .replace c cs ∈ ins → c ∉ ins.flatMap ClockInstr.gone ∧ cs ≠ [] ∧ ∀ i ∈ cs, c < i) ∧
    (ins.map ClockInstr.removedCount).sum = (ins.flatMap ClockInstr.gone).length := by
  obtain ⟨g, hg, h⟩ := bind_ok h
  cases h
  obtain ⟨hgood, hsame, hlt⟩ := redundant_groups hs hdim (ord := ord) hg
  unfold redundancies
  dsimp only
  generalize hgr : g.equivalentGroups ord (g.usedClocks ord) = groups at hgood hsame ⊢
  generalize hus : g.usedClocks ord = used at hgood hlt ⊢
  generalize hun : ord.order 1 ((List.range' 1 (dim F - 1)).filter fun c => !(used.contains c)) = unused
  have hunused : unused.Nodup ∧ ∀ c ∈ unused, 0 < c ∧ c < dim F ∧ c ∉ used := by
    subst hun
    refine ⟨(ord.perm 1 _).nodup_iff.2 (List.Nodup.filter _ List.nodup_range'), fun c hc => ?_⟩
    have := List.mem_filter.1 ((ord.perm 1 _).mem_iff.1 hc)
    rw [List.mem_range'_1] at this
    have h2 := this.2
    simp only [List.contains_eq_mem, Bool.not_eq_eq_eq_not, Bool.not_true, decide_eq_false_iff_not] at h2
    exact ⟨by omega, by omega, h2⟩
  have hrem : (unused.map ClockInstr.remove).flatMap ClockInstr.gone = unused := by
    rw [List.flatMap_map]; exact List.flatMap_singleton' unused
  have hrep : (groups.map fun cs => ClockInstr.replace (minimum cs) (cs.erase (minimum cs))).flatMap
      ClockInstr.gone = groups.flatMap fun cs => cs.erase (minimum cs) := by
    rw [List.flatMap_map]; rfl
  have hperm := flatten_mins (groups := groups) fun x hx h0 => by
    have := hgood.big x hx
    rw [h0] at this; simp at this
  have hnd := hperm.nodup_iff.1 hgood.nodup
  rw [List.nodup_append] at hnd
  have hused : ∀ c ∈ groups.flatMap (fun cs => cs.erase (minimum cs)), c ∈ used :=
    fun c hc => hgood.used c (hperm.mem_iff.2 (List.mem_append.2 (.inr hc)))
  refine ⟨?_, ?_, ?_, ?_⟩
  · rw [List.flatMap_append, hrem, hrep, List.nodup_append]
    refine ⟨hunused.1, hnd.2.1, fun a ha b hb hab => ?_⟩
    rw [← hab] at hb
    exact (hunused.2 a ha).2.2 (hused a hb)
  · intro c hc
    rw [List.flatMap_append, hrem, hrep, List.mem_append] at hc
    rcases hc with hc | hc
    · exact ⟨(hunused.2 c hc).1, (hunused.2 c hc).2.1⟩
    · exact hlt c (hused c hc)
  · intro c cs hc
    obtain ⟨x, hx, he⟩ : ∃ x ∈ groups, ClockInstr.replace (minimum x) (x.erase (minimum x)) = .replace c cs := by
      rcases List.mem_append.1 hc with hc | hc
      · obtain ⟨x, _, hx⟩ := List.mem_map.1 hc; cases hx
      · obtain ⟨x, hx, he⟩ := List.mem_map.1 hc
        exact ⟨x, hx, he⟩
    cases he
    have hbig := hgood.big x hx
    have hne : x ≠ [] := fun h0 => by rw [h0] at hbig; simp at hbig
    obtain ⟨h1, h2⟩ := minimum_mem hne
    have hnot : minimum x ∉ groups.flatMap fun cs => cs.erase (minimum cs) :=
      fun hm => hnd.2.2 _ (List.mem_map.2 ⟨x, hx, rfl⟩) _ hm rfl
    refine ⟨?_, ?_, fun i hi => ?_⟩
    · rw [List.flatMap_append, hrem, hrep, List.mem_append]
      rintro (hm | hm)
      · exact (hunused.2 _ hm).2.2 (hgood.used _ (List.mem_flatten.2 ⟨x, hx, h1⟩))
      · exact hnot hm
    · intro h0
      have := List.length_erase_of_mem h1
      rw [h0] at this
      simp at this; omega
    · have h3 := h2 i (List.mem_of_mem_erase hi)
      have h4 : i ≠ minimum x := fun e => hnot (List.mem_flatMap.2 ⟨x, hx, by rw [← e]; rw [← e] at hi; exact hi⟩)
      omega
  · rw [List.length_flatMap]
    congr 1
    refine List.map_congr_left fun i _ => ?_
    cases i <;> rfl

/-! ## Examples -/

/-- Hash sets traversed in the order of the lists. -/
def plainOrder : HashOrder := ⟨fun _ l => l, fun _ _ => .refl _⟩

/-- Clocks `x` and `y` are always reset together, `z` by itself. -/
def exTwins : Component := ⟨"T", ⟨[], [("x", 1), ("y", 2), ("z", 3)]⟩,
  [⟨"L0", some (.le (.var "z") (.int 9)), .initial, "NORMAL"⟩, ⟨"L1", none, .normal, "NORMAL"⟩],
  [⟨"e", "L0", "L1", .input, some (.and (.le (.var "x") (.int 3)) (.ge (.var "y") (.int 1))),
     some [⟨"y", .int 0⟩, ⟨"x", .int 0⟩], "a"⟩,
   ⟨"f", "L1", "L0", .output, some (.le (.var "z") (.int 5)), some [⟨"z", .int 0⟩], "b"⟩]⟩

def sysTwins : Sys Fed4 := .comp (getOk (CompComp.compile id exTwins 0) (by decide +kernel))

theorem sysTwins_accepted : sysTwins.Accepted :=
  .comp (Component.ok_of_okB (by decide)) (fun _ => .refl _) (getOk_eq _)

/-- All hypotheses hold of the example, and the answer is to replace `y` by `x`. -/
example : sysTwins.CleanNames ∧ sysTwins.I32Updates ∧ dim Fed4 ≤ 4294967295 ∧ sysTwins.ts.IsActions ["a", "b"] ∧
    findRedundantClocks plainOrder sysTwins.ts ["a", "b"] 10 = .ok [.replace 1 [2]] := by
  refine ⟨by decide +kernel, by decide +kernel, by decide, ?_, rfl⟩
  · refine ⟨by decide, fun a => ?_⟩
    have h1 : sysTwins.ts.inputs = ["a"] := by decide +kernel
    have h2 : sysTwins.ts.outputs = ["b"] := by decide +kernel
    rw [h1, h2]; simp

/-- Two components with location names that contain an operator: `(a, b||c)` and `(a||b, c)` have the same
string. -/
def exOddA : Component := ⟨"A", ⟨[], [("x", 1)]⟩,
  [⟨"a", none, .initial, "NORMAL"⟩, ⟨"a||b", none, .normal, "NORMAL"⟩],
  [⟨"e", "a", "a||b", .input, some (.ge (.var "x") (.int 1)), none, "e"⟩,
   ⟨"f", "a||b", "a||b", .input, none, some [⟨"x", .int 0⟩], "f"⟩]⟩

def exOddB : Component := ⟨"B", ⟨[], [("y", 2)]⟩,
  [⟨"b||c", none, .initial, "NORMAL"⟩, ⟨"c", none, .normal, "NORMAL"⟩],
  [⟨"e", "b||c", "c", .input, some (.ge (.var "y") (.int 1)), none, "e"⟩,
   ⟨"f", "c", "c", .input, none, none, "f"⟩]⟩

def sysOddA : Sys Fed4 := .comp (getOk (CompComp.compile id exOddA 0) (by decide +kernel))
def sysOddB : Sys Fed4 := .comp (getOk (CompComp.compile id exOddB 1) (by decide +kernel))
def sysOdd : Sys Fed4 := getOk (Sys.newComposition sysOddA sysOddB) (by decide +kernel)

theorem sysOdd_accepted : sysOdd.Accepted :=
  .composition (.comp (Component.ok_of_okB (c := exOddA) (by decide)) (fun _ => .refl _) (getOk_eq _))
    (.comp (Component.ok_of_okB (c := exOddB) (by decide)) (fun _ => .refl _) (getOk_eq _)) (getOk_eq _)

/-- The full property is false: the reduction asks to replace `y` by `x`, but the system gets into a state in which
they differ. -/
theorem C24_violated_names :
    findRedundantClocks plainOrder sysOdd.ts ["e", "f"] 10 = .ok [.remove 3, .replace 1 [2]] ∧
    ∃ l v, sysOdd.ts.Reach l v ∧ v 2 ≠ v 1 := by
  refine ⟨rfl, ?_⟩
  let l0 : LocTree Fed4 := getOk (LocTree.compose (.leaf (.simple "a") none .initial)
    (.leaf (.simple "b||c") none .initial) .composition) rfl
  let l1 : LocTree Fed4 := getOk (LocTree.compose (.leaf (.simple "a||b") none .normal)
    (.leaf (.simple "c") none .normal) .composition) rfl
  let e : Transition Fed4 := ⟨.composition (.simple "e") (.simple "e"),
    inter (constrain univ 0 1 (.LE (-1))) (constrain univ 0 2 (.LE (-1))), l1, []⟩
  let f : Transition Fed4 := ⟨.composition (.simple "f") (.simple "f"), inter univ univ, l1, [⟨1, 0⟩]⟩
  have h0 : sysOdd.ts.Reach l0 zeroVal := .init rfl (by intro i hi; cases hi)
  let v1 : Val := delay (dim Fed4) zeroVal 1
  have hv1 : Valid (dim Fed4) v1 := delay_valid Sys.zeroVal_valid (by norm_num)
  have h1 : sysOdd.ts.Reach l0 v1 := .delay h0 ⟨by norm_num, fun d _ _ => (by intro i hi; cases hi)⟩
  have h2 : sysOdd.ts.Reach l1 v1 := by
    refine .act h1 (a := "e") ⟨by decide +kernel, [e], rfl, e, by simp, ⟨?_, by intro i hi; cases hi⟩, rfl, rfl⟩
    show v1 ∈ den (inter _ _)
    rw [den_inter, den_constrain _ _ _ _ (by decide) (by decide), den_constrain _ _ _ _ (by decide) (by decide),
      den_univ]
    refine ⟨⟨hv1, ?_⟩, hv1, ?_⟩ <;> simp [v1, delay, zeroVal, dim_fed4, Ineq.Sat]
  have h3 : sysOdd.ts.Reach l1 (assign v1 1 0) := by
    refine .act h2 (a := "f") ⟨by decide +kernel, [f], rfl, f, by simp, ⟨?_, by intro i hi; cases hi⟩, rfl, ?_⟩
    · show v1 ∈ den (inter _ _)
      rw [den_inter, den_univ]; exact ⟨hv1, hv1⟩
    · simp [f, runUpdates]
  refine ⟨l1, _, h3, ?_⟩
  simp [assign, v1, delay, zeroVal, dim_fed4]

end Reveaal
