import Verif.Lemmas.SaveComponent
import Verif.Props.C08

/-!
# C31 Every clock of a saved component has its own name

Clocks that would share a name are told apart by appending the number of the declaration.  That can produce a name
that is in use already, and then one clock loses its name: the property is violated.  It holds when no clock name
ends in a digit.
-/

namespace Reveaal
open ZoneLib

/-- Every declared clock has a name in `m`, and a name stands for one clock only. -/
structure NamesAll (ds : List Decls) (m : List (String × Nat)) : Prop where
  one : ∀ n i j, (n, i) ∈ m → (n, j) ∈ m → i = j
  every : ∀ d ∈ ds, ∀ n i, (n, i) ∈ d.clocks → ∃ n', (n', i) ∈ m
  only : ∀ n i, (n, i) ∈ m → ∃ d ∈ ds, ∃ n', (n', i) ∈ d.clocks

/-- The last character of a name is not a digit. -/
def NoDigitEnd (n : String) : Prop := ∀ c, n.toList.getLast? = some c → c.isDigit = false

/-! ## Names with a number appended -/

theorem toString_digits (k : Nat) : (toString k).toList ≠ [] ∧ ∀ c ∈ (toString k).toList, c.isDigit = true := by
  simp only [Nat.toString_eq_repr, Nat.repr_eq_ofList_toDigits, String.toList_ofList]
  exact ⟨Nat.toDigits_ne_nil, fun c hc => Nat.isDigit_of_mem_toDigits (by decide) (by decide) hc⟩

theorem numbered_digitEnd {n : String} {k : Nat} (h : NoDigitEnd (n ++ toString k)) : False := by
  obtain ⟨h1, h2⟩ := toString_digits k
  have : (n ++ toString k).toList.getLast? = some ((toString k).toList.getLast h1) := by
    rw [String.toList_append, List.getLast?_append_of_ne_nil _ h1, List.getLast?_eq_getLast_of_ne_nil h1]
  have := h _ this
  rw [h2 _ (List.getLast_mem h1)] at this
  cases this

theorem takeWhile_digits {d n : List Char} (hd : ∀ c ∈ d, c.isDigit = true)
    (hn : ∀ c, n.head? = some c → c.isDigit = false) : (d ++ n).takeWhile Char.isDigit = d := by
  induction d with
  | nil =>
    cases n with
    | nil => rfl
    | cons c n => simp [hn c rfl]
  | cons c d ih =>
    rw [List.cons_append, List.takeWhile_cons, if_pos (hd c (.head _)), ih fun x hx => hd x (.tail _ hx)]

theorem numbered_inj {n n' : String} {k k' : Nat} (hn : NoDigitEnd n) (hn' : NoDigitEnd n')
    (h : n ++ toString k = n' ++ toString k') : n = n' ∧ k = k' := by
  have h1 : ((toString k).toList.reverse ++ n.toList.reverse) = ((toString k').toList.reverse ++ n'.toList.reverse) := by
    rw [← List.reverse_append, ← List.reverse_append, ← String.toList_append, ← String.toList_append, h]
  have h2 := congrArg (List.takeWhile Char.isDigit) h1
  rw [takeWhile_digits, takeWhile_digits] at h2
  · have hk : k = k' := natStr_inj (String.toList_inj.1 (List.reverse_injective h2))
    subst hk
    exact ⟨(String.append_left_inj _).1 h, rfl⟩
  all_goals first
    | (intro c hc; exact (toString_digits _).2 c (List.mem_reverse.1 hc))
    | (intro c hc; rw [List.head?_reverse] at hc; first | exact hn c hc | exact hn' c hc)

/-! ## The merged map -/

theorem hmInsert_fresh {K V : Type} [DecidableEq K] {k : K} {v : V} {m : List (K × V)} (h : k ∉ m.map (·.1)) :
    hmInsert k v m = m ++ [(k, v)] := by
  induction m with
  | nil => rfl
  | cons p m ih =>
    obtain ⟨k', v'⟩ := p
    rw [List.map_cons, List.mem_cons, not_or] at h
    unfold hmInsert
    rw [if_neg (fun he => h.1 he.symm), ih h.2, List.cons_append]

/-- The names in use before clock number `k` of a declaration: plain ones, ones with an earlier number, and ones with
this number made from the clocks seen. -/
def KeysBy (k : Nat) (seen : List String) (m : List (String × Nat)) : Prop :=
  ∀ x ∈ m.map (·.1), NoDigitEnd x ∨ ∃ n j, x = n ++ toString j ∧ NoDigitEnd n ∧ (j < k ∨ (j = k ∧ n ∈ seen))

theorem addClock_fresh {k : Nat} {seen : List String} {m : List (String × Nat)} {p : String × Nat}
    (hm : KeysBy k seen m) (hp : NoDigitEnd p.1) (hs : p.1 ∉ seen) :
    ∃ n, addClock k m p = m ++ [(n, p.2)] ∧ KeysBy k (p.1 :: seen) (m ++ [(n, p.2)]) := by
  have old : ∀ x ∈ m.map (·.1), NoDigitEnd x ∨
      ∃ n j, x = n ++ toString j ∧ NoDigitEnd n ∧ (j < k ∨ (j = k ∧ n ∈ p.1 :: seen)) := by
    intro x hx
    rcases hm x hx with h | ⟨n, j, h1, h2, h3 | ⟨h3, h4⟩⟩
    · exact .inl h
    · exact .inr ⟨n, j, h1, h2, .inl h3⟩
    · exact .inr ⟨n, j, h1, h2, .inr ⟨h3, .tail _ h4⟩⟩
  unfold addClock
  split
  · refine ⟨_, hmInsert_fresh fun hx => ?_, ?_⟩
    · rcases hm _ hx with h | ⟨n, j, h1, h2, h3⟩
      · exact numbered_digitEnd h
      · obtain ⟨rfl, rfl⟩ := numbered_inj hp h2 h1
        rcases h3 with h3 | ⟨_, h3⟩
        · exact absurd h3 (lt_irrefl _)
        · exact hs h3
    · intro x hx
      rw [List.map_append] at hx
      rcases List.mem_append.1 hx with hx | hx
      · exact old x hx
      · rw [List.mem_singleton.1 hx]
        exact .inr ⟨p.1, k, rfl, hp, .inr ⟨rfl, .head _⟩⟩
  · next hc =>
    refine ⟨_, hmInsert_fresh fun hx => hc (List.contains_iff_mem.2 hx), ?_⟩
    intro x hx
    rw [List.map_append] at hx
    rcases List.mem_append.1 hx with hx | hx
    · exact old x hx
    · rw [List.mem_singleton.1 hx]
      exact .inl hp

theorem addClocks_fresh {k : Nat} : ∀ (cs : List (String × Nat)) (seen : List String) (m : List (String × Nat)),
    KeysBy k seen m → (∀ p ∈ cs, NoDigitEnd p.1) → (seen ++ cs.map (·.1)).Nodup →
    ∃ ns, cs.foldl (addClock k) m = m ++ ns ∧ ns.map (·.2) = cs.map (·.2) ∧
      KeysBy (k + 1) [] (m ++ ns)
  | [], seen, m, hm, _, _ => by
    refine ⟨[], by simp, rfl, fun x hx => ?_⟩
    rw [List.append_nil] at hx
    rcases hm x hx with h | ⟨n, j, h1, h2, h3⟩
    · exact .inl h
    · exact .inr ⟨n, j, h1, h2, .inl (by omega)⟩
  | p :: cs, seen, m, hm, hp, hnd => by
    rw [List.map_cons] at hnd
    have hps : p.1 ∉ seen := fun h => (List.nodup_append.1 hnd).2.2 _ h _ (.head _) rfl
    obtain ⟨n, h1, h2⟩ := addClock_fresh hm (hp p (.head _)) hps
    obtain ⟨ns, h3, h4, h5⟩ := addClocks_fresh cs (p.1 :: seen) _ h2 (fun q hq => hp q (.tail _ hq))
      (by
        have : (seen ++ p.1 :: cs.map (·.1)).Perm (p.1 :: seen ++ cs.map (·.1)) := List.perm_middle
        exact this.nodup_iff.1 hnd)
    refine ⟨(n, p.2) :: ns, ?_, by simp [h4], ?_⟩
    · rw [List.foldl_cons, h1, h3]; simp
    · rw [List.append_cons]; exact h5

theorem mergeClocks_fresh : ∀ (k : Nat) (ds : List Decls) (m : List (String × Nat)), KeysBy k [] m →
    (∀ d ∈ ds, (d.clocks.map (·.1)).Nodup) → (∀ d ∈ ds, ∀ p ∈ d.clocks, NoDigitEnd p.1) →
    ∃ ns, mergeClocks k ds m = m ++ ns ∧ ns.map (·.2) = (ds.map fun d => d.clocks.map (·.2)).flatten
  | _, [], m, _, _, _ => ⟨[], by simp [mergeClocks], rfl⟩
  | k, d :: ds, m, hm, hnd, hp => by
    obtain ⟨ns, h1, h2, h3⟩ := addClocks_fresh d.clocks [] m hm (hp d (.head _)) (by simpa using hnd d (.head _))
    obtain ⟨ms, h4, h5⟩ := mergeClocks_fresh (k + 1) ds _ h3 (fun x hx => hnd x (.tail _ hx))
      (fun x hx => hp x (.tail _ hx))
    refine ⟨ns ++ ms, ?_, by simp [h2, h5]⟩
    rw [mergeClocks, h1, h4, List.append_assoc]

theorem one_of_nodup {m : List (String × Nat)} (h : (m.map (·.1)).Nodup) {n : String} {i j : Nat} (hi : (n, i) ∈ m)
    (hj : (n, j) ∈ m) : i = j := by
  have := List.inj_on_of_nodup_map h hi hj rfl
  exact congrArg Prod.snd this

/-- **C31** holds when no clock name ends in a digit: the map of the saved component names every clock of every part,
and no name stands for two of them.  The declarations are hash maps (each lists distinct names), in any order.
Missing: clock names that end in a digit, see `C31_violated`. -/
theorem C31_names_partial (ds : List Decls) (hd : ∀ d ∈ ds, (d.clocks.map (·.1)).Nodup)
    (hdig : ∀ d ∈ ds, ∀ p ∈ d.clocks, NoDigitEnd p.1) : NamesAll ds (clockMap ds) := by
  obtain ⟨h1, h2⟩ := clockMap_spec hd
  refine ⟨fun n i j => one_of_nodup h1, fun d hdm n i hni => ?_, fun n i hni => ?_⟩
  · have key : i ∈ (clockMap ds).map (·.2) := by
      unfold clockMap
      split
      · rw [← List.mem_singleton.1 hdm]
        exact List.mem_map.2 ⟨_, hni, rfl⟩
      · obtain ⟨ns, h3, h4⟩ := mergeClocks_fresh 0 ds [] (by rintro x ⟨⟩) hd hdig
        rw [h3, List.nil_append, h4]
        exact List.mem_flatten.2 ⟨_, List.mem_map.2 ⟨d, hdm, rfl⟩, List.mem_map.2 ⟨_, hni, rfl⟩⟩
    obtain ⟨p, hp, rfl⟩ := List.mem_map.1 key
    exact ⟨p.1, hp⟩
  · obtain ⟨d, hdm, hm⟩ := h2 _ hni
    obtain ⟨p, hp, he⟩ := List.mem_map.1 hm
    have he : p.2 = i := he
    exact ⟨d, hdm, p.1, by rw [← he]; exact hp⟩

/-- A single part keeps its own names, whatever they are. -/
theorem C31_single (d : Decls) (hd : (d.clocks.map (·.1)).Nodup) :
    clockMap [d] = d.clocks ∧ NamesAll [d] (clockMap [d]) := by
  refine ⟨rfl, fun n i j => one_of_nodup hd, fun d' hd' n i h => ?_, fun n i h => ⟨d, .head _, n, h⟩⟩
  rw [List.mem_singleton.1 hd'] at h
  exact ⟨n, h⟩

/-- Whatever the names are, no name stands for two clocks: what can be lost is a name for some clock. -/
theorem C31_unique (ds : List Decls) (hd : ∀ d ∈ ds, (d.clocks.map (·.1)).Nodup) :
    ((clockMap ds).map (·.1)).Nodup := (clockMap_spec hd).1

/-- Three parts that all have a clock `x`; the first has a second clock. -/
def declsXXX : List Decls := [⟨[], [("x", 1), ("y", 2)]⟩, ⟨[], [("x", 3)]⟩, ⟨[], [("x", 4), ("y", 5)]⟩]

example : NamesAll declsXXX (clockMap declsXXX) ∧
    clockMap declsXXX = [("x", 1), ("y", 2), ("x1", 3), ("x2", 4), ("y2", 5)] := by
  refine ⟨C31_names_partial _ ?_ ?_, by decide⟩
  · unfold declsXXX; decide
  · have key : ∀ n : String, (n.toList.getLast?.all fun c => !c.isDigit) = true → NoDigitEnd n := by
      intro n h c hc
      rw [hc] at h
      simpa using h
    intro d hd p hp
    apply key
    revert d
    unfold declsXXX
    intro d hd hp
    simp only [List.mem_cons, List.not_mem_nil, or_false] at hd
    rcases hd with rfl | rfl | rfl <;> simp only [List.mem_cons, List.not_mem_nil, or_false] at hp <;>
      rcases hp with rfl | rfl <;> decide

/-! ## The violation -/

/-- A part with clocks `x` and `x1` and a part with a clock `x`. -/
def declsLost : List Decls := [⟨[], [("x", 1), ("x1", 2)]⟩, ⟨[], [("x", 3)]⟩]

/-- **C31 is violated**: the `x` of the second part is renamed to `x1` and takes the place of the `x1` of the first
part, in either iteration order of the first part's clocks, so clock 2 has no name. -/
theorem C31_violated : ¬ NamesAll declsLost (clockMap declsLost) ∧
    (∀ n, (n, 2) ∉ clockMap declsLost) ∧
    ∀ n, (n, 2) ∉ clockMap [⟨[], [("x1", 2), ("x", 1)]⟩, ⟨[], [("x", 3)]⟩] := by
  have h1 : ∀ n, (n, 2) ∉ clockMap declsLost := by
    intro n h
    rw [show clockMap declsLost = [("x", 1), ("x1", 3)] by decide] at h
    simp at h
  refine ⟨fun h => ?_, h1, fun n h => ?_⟩
  · obtain ⟨n, hn⟩ := h.every _ (.head _) "x1" 2 (by decide)
    exact h1 n hn
  · rw [show clockMap [⟨[], [("x1", 2), ("x", 1)]⟩, ⟨[], [("x", 3)]⟩] = [("x1", 3), ("x", 1)] by decide] at h
    simp at h

/-- The component with two clocks uses the one that loses its name. -/
def exLostA : Component := ⟨"A", ⟨[], [("x", 1), ("x1", 2)]⟩,
  [⟨"L0", none, .initial, "NORMAL"⟩],
  [⟨"e0", "L0", "L0", .output, some (.ge (.var "x1") (.int 2)), some [⟨"x1", .int 0⟩], "beep"⟩]⟩

def exLostB : Component := ⟨"B", ⟨[], [("x", 3)]⟩,
  [⟨"M0", none, .initial, "NORMAL"⟩],
  [⟨"f0", "M0", "M0", .output, some (.ge (.var "x") (.int 1)), some [⟨"x", .int 0⟩], "tick"⟩]⟩

def sysLostA : Sys Fed4 := .comp (getOk (CompComp.compile id exLostA 0) (by decide +kernel))
def sysLostB : Sys Fed4 := .comp (getOk (CompComp.compile id exLostB 1) (by decide +kernel))
def sysLost : Sys Fed4 := getOk (Sys.newComposition sysLostA sysLostB) (by decide +kernel)

theorem sysLost_accepted : sysLost.Accepted :=
  .composition (.comp (Component.ok_of_okB (by decide)) (fun _ => .refl _) (getOk_eq _))
    (.comp (Component.ok_of_okB (by decide)) (fun _ => .refl _) (getOk_eq _)) (getOk_eq (r := Sys.newComposition sysLostA sysLostB) _)

/-- What a user sees: saving the composition of these two well-formed components panics. -/
theorem C31_violated_panic : sysLost.Accepted ∧
    getComponent sysLost (fun _ => (sysLost.inputs, sysLost.outputs)) 10 "AB" = 
      .error (.panic "called `Option::unwrap()` on a `None` value") := by
  refine ⟨sysLost_accepted, by decide +kernel⟩

end Reveaal
