import Verif.Model.TransPath
import Verif.Spec.TransPath
import Verif.Lemmas.SysGood
import Verif.Examples

/-!
# C36: splitting a path into one list of edges per component
-/

namespace Reveaal
open ZoneLib

namespace TransId

/-! ## Columns of leaves -/

/-- Append column by column -/
def zipLong : List (List TransId) → List (List TransId) → List (List TransId)
  | [], bs => bs
  | as, [] => as
  | a :: as, b :: bs => (a ++ b) :: zipLong as bs

/-- Append the columns `cols` to the columns from `i` on -/
def addAt (cur : List (List TransId)) (i : Nat) (cols : List (List TransId)) : List (List TransId) :=
  cur.take i ++ zipLong (cur.drop i) cols

theorem zipLong_nil (as : List (List TransId)) : zipLong as [] = as := by cases as <;> rfl

theorem zipLong_length (as bs : List (List TransId)) : (zipLong as bs).length = max as.length bs.length := by
  induction as generalizing bs with
  | nil => simp [zipLong]
  | cons a as ih =>
    cases bs with
    | nil => simp [zipLong]
    | cons b bs => simp [zipLong, ih]

theorem zipLong_assoc (as bs cs : List (List TransId)) : zipLong (zipLong as bs) cs = zipLong as (zipLong bs cs) := by
  induction as generalizing bs cs with
  | nil => rfl
  | cons a as ih =>
    cases bs with
    | nil => rfl
    | cons b bs =>
      cases cs with
      | nil => rfl
      | cons c cs => simp [zipLong, ih]

theorem zipLong_append (D as bs : List (List TransId)) :
    (zipLong D as).take as.length ++ zipLong ((zipLong D as).drop as.length) bs = zipLong D (as ++ bs) := by
  induction as generalizing D with
  | nil => simp [zipLong_nil]
  | cons a as ih =>
    cases D with
    | nil => simp [zipLong]
    | cons d D => simp [zipLong, ih]

theorem addAt_length {cur cols : List (List TransId)} {i : Nat} (h : i ≤ cur.length) :
    i + cols.length ≤ (addAt cur i cols).length := by
  simp only [addAt, List.length_append, List.length_take, zipLong_length, List.length_drop]
  omega

theorem addAt_append {cur as bs : List (List TransId)} {i : Nat} (h : i ≤ cur.length) :
    addAt (addAt cur i as) (i + as.length) bs = addAt cur i (as ++ bs) := by
  have h1 : (cur.take i).length = i := by rw [List.length_take]; omega
  unfold addAt
  generalize cur.drop i = D
  generalize cur.take i = T at h1
  subst h1
  rw [List.take_append, List.drop_append, List.take_of_length_le (by omega), List.drop_of_length_le (by omega),
    Nat.add_sub_cancel_left, List.nil_append, List.append_assoc, zipLong_append]

theorem addAt_same {cur as bs : List (List TransId)} {i : Nat} (h : i ≤ cur.length) :
    addAt (addAt cur i as) i bs = addAt cur i (zipLong as bs) := by
  have h1 : (cur.take i).length = i := by rw [List.length_take]; omega
  unfold addAt
  generalize cur.drop i = D
  generalize cur.take i = T at h1
  subst h1
  rw [List.take_append, List.drop_append, List.take_of_length_le (by omega), List.drop_of_length_le (by omega),
    Nat.sub_self, List.take_zero, List.drop_zero, List.append_nil, List.nil_append, zipLong_assoc]

theorem pushAt_ok (x : TransId) {cur : List (List TransId)} {i : Nat} (h : i < cur.length) :
    pushAt x i cur = .ok (addAt cur i [[x]]) := by
  induction cur generalizing i with
  | nil => simp at h
  | cons c cur ih =>
    cases i with
    | zero => simp [pushAt, addAt, zipLong, zipLong_nil]
    | succ i =>
      rw [pushAt, ih (by simpa using h)]
      simp [addAt, ok_bind]

theorem pushLeaf_ok (x : TransId) {cur : List (List TransId)} {i : Nat} (h : i ≤ cur.length) :
    pushLeaf x cur i = .ok (addAt cur i [[x]], i) := by
  unfold pushLeaf
  split
  · have e : i = cur.length := by omega
    rw [pushAt_ok x (by simp; omega), ok_bind]
    simp [addAt, e, zipLong]
  · rw [pushAt_ok x (by omega), ok_bind]

mutual
/-- The leaves, one column for each component -/
def cols : TransId → List (List TransId)
  | .conjunction l r | .composition l r => l.cols ++ r.cols
  | .quotient l r => colsAll l ++ colsAll r
  | .simple n => [[.simple n]]
  | .none => [[.none]]
/-- The columns of all of the list -/
def colsAll : List TransId → List (List TransId)
  | [] => []
  | t :: ts => zipLong t.cols (colsAll ts)
end

theorem fullAll_first {t : TransId} {ts : List TransId} (h : FullAll (widthFirst (t :: ts)) (t :: ts)) :
    FullAll t.width (t :: ts) := by
  simpa only [widthFirst] using h

mutual
theorem cols_length : (t : TransId) → t.Full → t.cols.length = t.width ∧ 1 ≤ t.width
  | .conjunction l r, h => by
    simp only [Full] at h
    have h1 := cols_length l h.1
    have h2 := cols_length r h.2
    simp only [cols, width, List.length_append]; omega
  | .composition l r, h => by
    simp only [Full] at h
    have h1 := cols_length l h.1
    have h2 := cols_length r h.2
    simp only [cols, width, List.length_append]; omega
  | .quotient l r, h => by
    simp only [Full] at h
    have h1 := colsAll_length l _ h.2.2.1
    have h2 := colsAll_length r _ h.2.2.2
    have h3 := h1.2 h.1
    have h4 := h2.2 h.2.1
    simp only [cols, width, List.length_append]; omega
  | .simple n, _ => ⟨by simp [cols, width], by simp [width]⟩
  | .none, _ => ⟨by simp [cols, width], by simp [width]⟩
theorem colsAll_length : (ts : List TransId) → (n : Nat) → FullAll n ts →
    (colsAll ts).length ≤ n ∧ (ts ≠ [] → (colsAll ts).length = n ∧ 1 ≤ n)
  | [], n, _ => ⟨by simp [colsAll], fun h => absurd rfl h⟩
  | t :: ts, n, h => by
    simp only [FullAll] at h
    have h1 := cols_length t h.1
    have h2 := colsAll_length ts n h.2.2
    simp only [colsAll, zipLong_length]
    have h3 := h.2.1
    exact ⟨by omega, fun _ => by omega⟩
end

mutual
theorem leavesHelper_ok : (t : TransId) → t.Full → ∀ {cur : List (List TransId)} {i : Nat}, i ≤ cur.length →
    leavesHelper t cur i = .ok (addAt cur i t.cols, i + t.width - 1)
  | .conjunction l r, h, cur, i, hi => by
    simp only [Full] at h
    have h1 := cols_length l h.1
    have h2 := cols_length r h.2
    have hl := addAt_length (cols := l.cols) hi
    rw [leavesHelper, leavesHelper_ok l h.1 hi, ok_bind]
    have e : i + l.width - 1 + 1 = i + l.cols.length := by omega
    simp only [e]
    rw [leavesHelper_ok r h.2 hl, addAt_append hi, cols, width, h1.1]
    congr 2; omega
  | .composition l r, h, cur, i, hi => by
    simp only [Full] at h
    have h1 := cols_length l h.1
    have h2 := cols_length r h.2
    have hl := addAt_length (cols := l.cols) hi
    rw [leavesHelper, leavesHelper_ok l h.1 hi, ok_bind]
    have e : i + l.width - 1 + 1 = i + l.cols.length := by omega
    simp only [e]
    rw [leavesHelper_ok r h.2 hl, addAt_append hi, cols, width, h1.1]
    congr 2; omega
  | .quotient l r, h, cur, i, hi => by
    simp only [Full] at h
    have h1 := (colsAll_length l _ h.2.2.1).2 h.1
    have h2 := (colsAll_length r _ h.2.2.2).2 h.2.1
    have hl := addAt_length (cols := colsAll l) hi
    rw [leavesHelper, leavesAll_ok l _ h.2.2.1 hi, if_neg h.1, ok_bind]
    have e : i + widthFirst l - 1 + 1 = i + (colsAll l).length := by omega
    simp only [e]
    rw [leavesAll_ok r _ h.2.2.2 hl, addAt_append hi, cols, width, if_neg h.2.1, h1.1]
    congr 2; omega
  | .simple n, _, cur, i, hi => by rw [leavesHelper, pushLeaf_ok _ hi, cols, width, Nat.add_sub_cancel]
  | .none, _, cur, i, hi => by rw [leavesHelper, pushLeaf_ok _ hi, cols, width, Nat.add_sub_cancel]
theorem leavesAll_ok : (ts : List TransId) → (n : Nat) → FullAll n ts → ∀ {cur : List (List TransId)} {i last : Nat},
    i ≤ cur.length →
      leavesAll ts cur i last = .ok (addAt cur i (colsAll ts), if ts = [] then last else i + n - 1)
  | [], n, _, cur, i, last, hi => by simp [leavesAll, colsAll, addAt, zipLong_nil]
  | t :: ts, n, h, cur, i, last, hi => by
    simp only [FullAll] at h
    have hl := addAt_length (cols := t.cols) hi
    rw [leavesAll, leavesHelper_ok t h.1 hi, ok_bind]
    simp only []
    rw [leavesAll_ok ts n h.2.2 (by omega), addAt_same hi, colsAll, if_neg (List.cons_ne_nil _ _), h.2.1]
    split <;> rfl
end

theorem getLeaves_ok {t : TransId} (h : t.Full) : t.getLeaves = .ok t.cols := by
  rw [getLeaves, leavesHelper_ok t h (Nat.zero_le _), ok_bind]
  simp [addAt, zipLong]

/-- The edges in a column -/
def named (c : List TransId) : List TransId := c.filter isSome

theorem zipLong_get (as bs : List (List TransId)) (k : Nat) :
    (zipLong as bs)[k]?.getD [] = as[k]?.getD [] ++ bs[k]?.getD [] := by
  induction as generalizing bs k with
  | nil => simp [zipLong]
  | cons a as ih =>
    cases bs with
    | nil => simp [zipLong]
    | cons b bs =>
      cases k with
      | zero => simp [zipLong]
      | succ k => simp [zipLong, ih]

theorem append_get {as bs : List (List TransId)} {k : Nat} :
    (as ++ bs)[k]?.getD [] = if k < as.length then as[k]?.getD [] else bs[k - as.length]?.getD [] := by
  rw [List.getElem?_append]; split <;> rfl

mutual
theorem cols_edges : (t : TransId) → t.Full → ∀ k, k < t.width →
    named (t.cols[k]?.getD []) = (t.edgesAt k).map .simple
  | .conjunction l r, h, k, hk => by
    simp only [Full] at h
    have h1 := cols_length l h.1
    simp only [width] at hk
    rw [cols, edgesAt, append_get, h1.1]
    split
    · exact cols_edges l h.1 k (by assumption)
    · exact cols_edges r h.2 _ (by omega)
  | .composition l r, h, k, hk => by
    simp only [Full] at h
    have h1 := cols_length l h.1
    simp only [width] at hk
    rw [cols, edgesAt, append_get, h1.1]
    split
    · exact cols_edges l h.1 k (by assumption)
    · exact cols_edges r h.2 _ (by omega)
  | .quotient l r, h, k, hk => by
    simp only [Full] at h
    have h1 := (colsAll_length l _ h.2.2.1).2 h.1
    simp only [width] at hk
    rw [cols, edgesAt, append_get, h1.1]
    split
    · exact colsAll_edges l _ h.2.2.1 k (by assumption)
    · exact colsAll_edges r _ h.2.2.2 _ (by omega)
  | .simple n, _, k, hk => by
    simp only [width] at hk
    have : k = 0 := by omega
    subst this
    simp [cols, edgesAt, named, isSome]
  | .none, _, k, hk => by
    simp only [width] at hk
    have : k = 0 := by omega
    subst this
    simp [cols, edgesAt, named, isSome]
theorem colsAll_edges : (ts : List TransId) → (n : Nat) → FullAll n ts → ∀ k, k < n →
    named ((colsAll ts)[k]?.getD []) = (edgesAll k ts).map .simple
  | [], n, _, k, _ => by simp [colsAll, edgesAll, named]
  | t :: ts, n, h, k, hk => by
    simp only [FullAll] at h
    rw [colsAll, zipLong_get, edgesAll, List.map_append, ← cols_edges t h.1 k (by omega), ← colsAll_edges ts n h.2.2 k hk]
    simp [named]
end

/-- The list for one component of the path, from the specification -/
def listOf (path : List TransId) (k : Nat) : List (List TransId) := path.map fun t => (t.edgesAt k).map .simple

theorem splitLoop_ok {n : Nat} : ∀ (path done : List TransId), (∀ t ∈ path, t.Full ∧ t.width = n) →
    splitLoop n path ((List.range n).map (listOf done)) = .ok ((List.range n).map (listOf (done ++ path)))
  | [], done, _ => by simp [splitLoop]
  | t :: path, done, h => by
    obtain ⟨h1, h2⟩ := h t (List.mem_cons_self ..)
    have h3 := cols_length t h1
    have hne : t.cols ≠ [] := by
      intro e; rw [e] at h3; simp at h3; omega
    rw [splitLoop, getLeaves_ok h1, ok_bind, if_neg hne, if_neg (by omega)]
    have e : List.zipWith (fun p l => p ++ [List.filter isSome l]) ((List.range n).map (listOf done)) t.cols =
        (List.range n).map (listOf (done ++ [t])) := by
      apply List.ext_getElem
      · simp; omega
      · intro k hk1 hk2
        have hk : k < n := by simpa using hk2
        have h4 := cols_edges t h1 k (by omega)
        rw [List.getElem?_eq_getElem (by omega), Option.getD_some] at h4
        simp only [List.getElem_zipWith, List.getElem_map, List.getElem_range, listOf, List.map_append]
        rw [← named, h4]; rfl
    rw [e, splitLoop_ok path (done ++ [t]) fun u hu => h u (List.mem_cons_of_mem _ hu)]
    simp

end TransId

open TransId

/-- **C36 (part).** Splitting a path whose transitions all speak about the same `n` components gives one list for each
component, with one entry for each transition of the path, in order: the edges of that component in the transition. -/
theorem C36_split_partial {path : List TransId} {n : Nat} (hne : path ≠ []) (h : ∀ t ∈ path, t.Full ∧ t.width = n) :
    splitPath path = .ok ((List.range n).map fun k => path.map fun t => (t.edgesAt k).map .simple) := by
  obtain ⟨t, path, rfl⟩ := List.exists_cons_of_ne_nil hne
  obtain ⟨h1, h2⟩ := h t (List.mem_cons_self ..)
  have h3 := cols_length t h1
  rw [splitPath, getLeaves_ok h1, ok_bind, h3.1, h2]
  have e : List.replicate n ([] : List (List TransId)) = (List.range n).map (listOf []) := by
    have : listOf [] = fun _ => [] := rfl
    rw [this, List.map_const', List.length_range]
  rw [e, splitLoop_ok (t :: path) [] h]
  rfl

theorem splitLoop_full {n : Nat} : ∀ {path : List TransId} {acc : List (List (List TransId))}, (∀ t ∈ path, t.Full) →
    (∃ p, splitLoop n path acc = .ok p) ∨ ∃ m, splitLoop n path acc = .error (.err m)
  | [], acc, _ => .inl ⟨acc, rfl⟩
  | t :: path, acc, h => by
    rw [splitLoop, getLeaves_ok (h t (List.mem_cons_self ..)), ok_bind]
    split
    · exact splitLoop_full fun u hu => h u (List.mem_cons_of_mem _ hu)
    · split
      · exact .inr ⟨_, rfl⟩
      · exact splitLoop_full fun u hu => h u (List.mem_cons_of_mem _ hu)

/-- **C36 (part).** Splitting does not crash if both sides of every quotient in the path have moves. -/
theorem C36_no_crash_partial {path : List TransId} (h : ∀ t ∈ path, t.Full) :
    (∃ p, splitPath path = .ok p) ∨ ∃ m, splitPath path = .error (.err m) := by
  cases path with
  | nil => exact .inl ⟨[], rfl⟩
  | cons t path =>
    rw [splitPath, getLeaves_ok (h t (List.mem_cons_self ..)), ok_bind]
    exact splitLoop_full h

/-! ## Systems -/

section
variable {F : Type} [ZoneLib F]

/-- What the identifiers of transitions of a system are -/
structure TransId.Fits (s : Sys F) (i : TransId) : Prop where
  full : i.Full
  width : i.width = s.components.length
  own : ∀ k e, k < i.width → e ∈ i.edgesAt k → ∃ c, s.components[k]? = some c ∧ c.HasEdge e

omit [ZoneLib F] in
theorem none_fits {s : Sys F} (h : s.components.length = 1) : TransId.Fits s .none :=
  ⟨by simp [Full], by simp [TransId.width, h], by intro k e _ he; simp [edgesAt] at he⟩

theorem pair_fits {l r s : Sys F} {c : CompType} {a b t : Transition F} (hs : s.components = l.components ++ r.components)
    (ha : TransId.Fits l a.id) (hb : TransId.Fits r b.id) (h : Transition.combine a b c = .ok t) : TransId.Fits s t.id := by
  unfold Transition.combine at h
  obtain ⟨x, _, h⟩ := bind_ok h
  have hid : t.id = .conjunction a.id b.id ∨ t.id = .composition a.id b.id := by
    cases c <;> simp only [ok_bind, error_bind] at h <;> cases h
    · exact .inl rfl
    · exact .inr rfl
  have own : ∀ k e, k < a.id.width + b.id.width → (e ∈ if k < a.id.width then a.id.edgesAt k else b.id.edgesAt (k - a.id.width)) →
      ∃ c, s.components[k]? = some c ∧ c.HasEdge e := by
    intro k e hk he
    rw [hs]
    split at he
    · rename_i hka
      obtain ⟨c, h1, h2⟩ := ha.own k e hka he
      exact ⟨c, by rw [List.getElem?_append_left (by rw [← ha.width]; exact hka)]; exact h1, h2⟩
    · rename_i hka
      obtain ⟨c, h1, h2⟩ := hb.own _ e (by omega) he
      refine ⟨c, ?_, h2⟩
      rw [List.getElem?_append_right (by rw [← ha.width]; omega), ← ha.width]; exact h1
  rcases hid with e | e <;> rw [e]
  · exact ⟨by simp only [Full]; exact ⟨ha.full, hb.full⟩, by
      simp only [TransId.width, ha.width, hb.width, hs, List.length_append], by simpa only [TransId.width, edgesAt] using own⟩
  · exact ⟨by simp only [Full]; exact ⟨ha.full, hb.full⟩, by
      simp only [TransId.width, ha.width, hb.width, hs, List.length_append], by simpa only [TransId.width, edgesAt] using own⟩

theorem compile_ids {order : List (LocId × LocTree F) → List (LocId × LocTree F)} {c : Component}
    {ins outs : List String} {id : Nat} {x : CompComp F} (h : CompComp.compileWith order c ins outs id = .ok x) :
    ∀ q ∈ x.edges, ∀ y ∈ q.2, ∃ e, y.2.id = .simple e := by
  unfold CompComp.compileWith at h
  split at h
  · cases h
  obtain ⟨locs0, h1, h⟩ := bind_ok h
  obtain ⟨edges, h2, h⟩ := bind_ok h
  cases h
  intro q hq y hy
  rcases (buildEdges_spec h2).2 q hq y hy with ⟨e, _, he⟩ | ⟨q', hq', _, hy'⟩
  · unfold Transition.fromEdge at he
    obtain ⟨_, _, he⟩ := bind_ok he
    obtain ⟨_, _, he⟩ := bind_ok he
    obtain ⟨_, _, he⟩ := bind_ok he
    obtain ⟨_, _, he⟩ := bind_ok he
    injection he with he
    exact ⟨_, by rw [← he]⟩
  · obtain ⟨p, _, rfl⟩ := List.mem_map.1 hq'
    cases hy'

theorem combos_fit {l r s : Sys F} {c : CompType} (hc : c.IsProd) {ls rs trans : List (Transition F)}
    (hs : s.components = l.components ++ r.components) (hl : ∀ a ∈ ls, TransId.Fits l a.id)
    (hr : ∀ b ∈ rs, TransId.Fits r b.id) (h : Transition.combinations ls rs c = .ok trans) :
    ∀ t ∈ trans, TransId.Fits s t.id := by
  obtain ⟨ts, h1, h2, _⟩ := combinations_ok (ls := ls) (rs := rs) hc
  rw [h] at h1; cases h1
  intro t ht
  obtain ⟨a, ha, b, hb, he⟩ := h2 t ht
  exact pair_fits hs (hl a ha) (hr b hb) he

/-- Every transition of such a system speaks about all its components, and about each with edges of its own. -/
theorem next_fits {s : Sys F} (hs : s.Accepted) (hi : s.SingleIdle) : ∀ {loc : LocTree F} {a : String} {trans : List (Transition F)},
    s.next loc a = .ok trans → ∀ t ∈ trans, TransId.Fits s t.id := by
  induction hs with
  | @comp order c ins outs id x hc ho h =>
    intro loc a trans hn
    have hids := compile_ids h
    have hnone : ∀ t ∈ [Transition.withoutId loc], TransId.Fits (.comp x) t.id := by
      intro t ht; rw [List.mem_singleton.1 ht]; exact none_fits rfl
    simp only [Sys.next, CompComp.next] at hn
    split at hn
    · cases hn
    · split at hn
      · cases hn; exact hnone
      · split at hn
        · cases hn; exact hnone
        · split at hn
          · cases hn
          · rename_i es he
            cases hn
            intro t ht
            obtain ⟨y, hy, rfl⟩ := List.mem_map.1 ht
            have hq := lookup_mem he
            have hy' := (List.mem_filter.1 hy).1
            obtain ⟨e, hid⟩ := hids _ hq y hy'
            rw [hid]
            refine ⟨by simp [Full], by simp [TransId.width, Sys.components], ?_⟩
            intro k e' hk he'
            simp only [TransId.width] at hk
            have : k = 0 := by omega
            subst this
            simp only [edgesAt, List.mem_singleton] at he'
            subst he'
            exact ⟨x, rfl, _, hq, y, hy', hid⟩
  | @composition l r s hl hr h ihl ihr =>
    intro loc a trans hn
    obtain ⟨i, o, lu, ru, common, rfl⟩ : ∃ i o lu ru common, s = .composition l r i o lu ru common := by
      unfold Sys.newComposition at h
      split at h
      · cases h
      · cases h; exact ⟨_, _, _, _, _, rfl⟩
    obtain ⟨i1, i2, i3, i4⟩ := hi
    simp only [Sys.next] at hn
    split at hn
    · cases hn
    · obtain ⟨ll, _, hn⟩ := bind_ok hn
      obtain ⟨lr, _, hn⟩ := bind_ok hn
      split at hn
      · obtain ⟨L, hL, hn⟩ := bind_ok hn
        obtain ⟨R, hR, hn⟩ := bind_ok hn
        exact combos_fit (by simp [CompType.IsProd]) rfl (ihl i1 hL) (ihr i2 hR) hn
      · split at hn
        · rename_i hlu
          obtain ⟨L, hL, hn⟩ := bind_ok hn
          have h1 : r.components.length = 1 := by
            rcases i3 with rfl | h1
            · simp at hlu
            · exact h1
          refine combos_fit (by simp [CompType.IsProd]) rfl (ihl i1 hL) ?_ hn
          intro b hb; rw [List.mem_singleton.1 hb]; exact none_fits h1
        · split at hn
          · rename_i hru
            obtain ⟨R, hR, hn⟩ := bind_ok hn
            have h1 : l.components.length = 1 := by
              rcases i4 with rfl | h1
              · simp at hru
              · exact h1
            refine combos_fit (by simp [CompType.IsProd]) rfl ?_ (ihr i2 hR) hn
            intro b hb; rw [List.mem_singleton.1 hb]; exact none_fits h1
          · cases hn
  | @conjunction l r s hl hr h ihl ihr =>
    intro loc a trans hn
    obtain ⟨i, o, rfl⟩ : ∃ i o, s = .conjunction l r i o := by
      unfold Sys.newConjunctionUnchecked at h
      split at h
      · cases h
      · split at h
        · cases h
        · cases h; exact ⟨_, _, rfl⟩
    obtain ⟨i1, i2⟩ := hi
    simp only [Sys.next] at hn
    split at hn
    · cases hn
    · obtain ⟨ll, _, hn⟩ := bind_ok hn
      obtain ⟨lr, _, hn⟩ := bind_ok hn
      obtain ⟨L, hL, hn⟩ := bind_ok hn
      obtain ⟨R, hR, hn⟩ := bind_ok hn
      exact combos_fit (by simp [CompType.IsProd]) rfl (ihl i1 hL) (ihr i2 hR) hn
  | @quotient t s x clock ht hs h0 hn h iht ihs =>
    exfalso
    unfold Sys.newQuotientUnchecked at h
    split at h
    · cases h
    · cases h; exact hi

/-- **C36 (part), for systems.** For a system without quotients, in which only single components stand still, any path of
transitions of the system is split into one list for each component: every entry of list `k` has only edges of component `k`,
and has them for each transition of the path in order. -/
theorem C36_system_partial {s : Sys F} (hs : s.Accepted) (hi : s.SingleIdle) {path : List (Transition F)} (hne : path ≠ [])
    (hp : ∀ t ∈ path, ∃ loc a trans, s.next loc a = .ok trans ∧ t ∈ trans) :
    splitPath (path.map (·.id)) =
        .ok ((List.range s.components.length).map fun k => path.map fun t => (t.id.edgesAt k).map .simple) ∧
      ∀ t ∈ path, ∀ k < s.components.length, ∀ e ∈ t.id.edgesAt k,
        ∃ c, s.components[k]? = some c ∧ c.HasEdge e := by
  have hfit : ∀ t ∈ path, TransId.Fits s t.id := by
    intro t ht
    obtain ⟨loc, a, trans, h1, h2⟩ := hp t ht
    exact next_fits hs hi h1 t h2
  constructor
  · have := C36_split_partial (path := path.map (·.id)) (n := s.components.length) (by simpa using hne) (by
      intro i hi'
      obtain ⟨t, ht, rfl⟩ := List.mem_map.1 hi'
      exact ⟨(hfit t ht).full, (hfit t ht).width⟩)
    rw [this]
    simp [List.map_map, Function.comp_def]
  · intro t ht k hk e he
    exact (hfit t ht).own k e (by rw [(hfit t ht).width]; exact hk) he

end

/-! ## Violations -/

/-- A component that ticks: clock `z` has index 3. -/
def exTick : Component := ⟨"D", ⟨[], [("z", 3)]⟩, [⟨"P0", none, .initial, "NORMAL"⟩],
  [⟨"h0", "P0", "P0", .output, some (.ge (.var "z") (.int 1)), some [⟨"z", .int 0⟩], "tick"⟩]⟩

def sysTick : Sys Fed4 := .comp (getOk (CompComp.compile id exTick 2) (by decide +kernel))

/-- `(A || B) || D` -/
def sysABD : Sys Fed4 := getOk (Sys.newComposition sysAB sysTick) (by decide +kernel)

theorem sysABD_accepted : sysABD.Accepted :=
  .composition sysAB_accepted (.comp (Component.ok_of_okB (c := exTick) (by decide)) (fun _ => .refl _) (getOk_eq _))
    (getOk_eq (r := Sys.newComposition sysAB sysTick) _)

/-- The initial location -/
def startABD : LocTree Fed4 := (getOk sysABD.initialLoc (by decide +kernel)).get (by decide +kernel)

/-- The tick from there -/
def tickABD : Transition Fed4 := (getOk (sysABD.next startABD "tick") (by decide +kernel)).head (by
  intro h; have := congrArg List.length h; revert this; decide +kernel)

/-- The move `go` of the other two components -/
def goABD : Transition Fed4 := (getOk (sysABD.next startABD "go") (by decide +kernel)).head (by
  intro h; have := congrArg List.length h; revert this; decide +kernel)

theorem startABD_next : sysABD.initialLoc = .ok (some startABD) ∧
    (∃ trans, sysABD.next startABD "tick" = .ok trans ∧ tickABD ∈ trans) ∧
    ∃ trans, sysABD.next startABD "go" = .ok trans ∧ goABD ∈ trans :=
  ⟨rfl, ⟨_, getOk_eq _, List.head_mem _⟩, ⟨_, getOk_eq _, List.head_mem _⟩⟩

/-- **C36 is violated** when a composition of several components stands still: the tick of the third of three components
is split into two lists, and its edge is in the list of the second. -/
theorem C36_violated_idle : sysABD.components.length = 3 ∧ splitPath [tickABD.id] = .ok [[[]], [[.simple "h0"]]] ∧
    ∀ c, sysABD.components[1]? = some c → ¬ c.HasEdge "h0" := by
  refine ⟨rfl, rfl, ?_⟩
  intro c hc
  have h : (sysABD.components[1]?.all fun c => c.edges.all fun q => q.2.all fun y => match y.2.id with
    | .simple e => decide (e ≠ "h0") | _ => true) = true := by decide +kernel
  rw [hc] at h
  rintro ⟨q, hq, y, hy, he⟩
  have := List.all_eq_true.1 (List.all_eq_true.1 h q hq) y hy
  rw [he] at this
  simp at this

/-- **C36 is violated**: a path that is possible in the system cannot be split. -/
theorem C36_violated_rejected : ∃ m, splitPath [goABD.id, tickABD.id] = .error (.err m) := ⟨_, rfl⟩

/-- The quotient `(A || B) \\ A` after `go` -/
def goneQ : LocTree Fed4 :=
  ((getOk (sysQ.next ((getOk sysQ.initialLoc (by decide +kernel)).get (by decide +kernel)) "go") (by decide +kernel)).head (by
    intro h; have := congrArg List.length h; revert this; decide +kernel)).target

/-- **C36 is violated**: a transition of a quotient system in which only the divisor moves makes splitting crash. -/
theorem C36_violated_quotient : ∃ trans, sysQ.next goneQ "out" = .ok trans ∧
    ∃ t ∈ trans, ∃ m, splitPath [t.id] = .error (.panic m) := by
  have hex : (getOk (sysQ.next goneQ "out") (by decide +kernel)).any (fun t => match splitPath [t.id] with
    | .error (.panic _) => true | _ => false) = true := by decide +kernel
  obtain ⟨t, ht, h⟩ := List.any_eq_true.1 hex
  refine ⟨_, getOk_eq _, t, ht, ?_⟩
  split at h
  · rename_i m hm; exact ⟨m, hm⟩
  · cases h

/-- Systems and paths to which the theorems apply -/
example : sysAB.SingleIdle ∧ sysAC.SingleIdle := by
  refine ⟨⟨trivial, trivial, .inr rfl, .inr rfl⟩, trivial, trivial⟩

example : (TransId.quotient [.simple "a", .none] [.composition (.simple "b") (.simple "c")]).Full ∧
    (TransId.quotient [.simple "a", .none] [.composition (.simple "b") (.simple "c")]).width = 3 := by
  simp [Full, FullAll, TransId.width, widthFirst]

end Reveaal
