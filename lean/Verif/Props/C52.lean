import Verif.Props.C49
import Verif.Props.C43

/-!
# C52: reading an update keeps the value it assigns
-/

namespace Reveaal
open Text

/-- The value of a name, number, sum, difference or product when the names have the given values -/
def Arith.at (val : String → Int) : Arith → Option Int
  | .int c => some c
  | .var n => some (val n)
  | .add l r => do some ((← l.at val) + (← r.at val))
  | .dif l r => do some ((← l.at val) - (← r.at val))
  | .mul l r => do some ((← l.at val) * (← r.at val))
  | _ => none

/-- The one update that was read, if that is what was read -/
def oneUpdate : Res (List Update) → Option Update
  | .ok [u] => some u
  | _ => none

theorem oneUpdate_ok {r : Res (List Update)} {u : Update} (h : oneUpdate r = some u) : r = .ok [u] := by
  unfold oneUpdate at h
  split at h
  · cases h; rfl
  · cases h

/-- **C52 is violated.** `x=y*z` is read as an update that assigns 0. -/
theorem C52_violated_product : ∃ e, parseUpdates "x=y*z".toList = .ok [⟨"x", e⟩] ∧
    (Arith.mul (.var "y") (.var "z")).encode = "y*z".toList ∧
    ∀ val, e.at val = some 0 :=
  ⟨.int 0, oneUpdate_ok (by decide +kernel), by decide +kernel, fun _ => rfl⟩

/-- **C52 is violated.** `x=5-(y-3)` is read as an update that assigns `y` minus two. -/
theorem C52_violated_difference : ∃ e, parseUpdates "x=5-(y-3)".toList = .ok [⟨"x", e⟩] ∧
    ∀ val, e.at val = some (val "y" - 2) ∧
      (Arith.dif (.int 5) (.dif (.var "y") (.int 3))).at val = some (8 - val "y") := by
  refine ⟨.dif (.var "y") (.int 2), oneUpdate_ok (by decide +kernel), fun val => ⟨rfl, ?_⟩⟩
  show some (5 - (val "y" - 3)) = some (8 - val "y")
  congr 1; omega

/-- **C52 is violated.** In `x=2*(3+y)` the name is not multiplied. -/
theorem C52_violated_sum : ∃ e, parseUpdates "x=2*(3+y)".toList = .ok [⟨"x", e⟩] ∧
    ∀ val, e.at val = some (6 + val "y") ∧
      (Arith.mul (.int 2) (.add (.int 3) (.var "y"))).at val = some (6 + 2 * val "y") := by
  refine ⟨.add (.int 6) (.var "y"), oneUpdate_ok (by decide +kernel), fun val => ⟨rfl, ?_⟩⟩
  show some (2 * (3 + val "y")) = some (6 + 2 * val "y")
  congr 1; omega

/-! ## Reading written updates -/

/-- An update as it is written -/
def Update.text (u : Update) : Chars := u.var.toList ++ ['='] ++ u.expr.encode

/-- What is kept of a written update -/
def Update.kept (u : Update) : Res Update :=
  match u.expr.simplify with
  | .ok e => .ok ⟨u.var, e⟩
  | .error (.err m) => .error (.panic ("Error simplifying update: " ++ m))
  | .error f => .error f

/-- What follows an update -/
def AfterUpdate (rest : Chars) : Prop := rest = [] ∨ ∃ r, rest = [',', ' '] ++ r

theorem update_reads {u : Update} (hn : IsName u.var) (he : u.expr.Flat 1) {rest : Chars} (h : AfterUpdate rest) :
    assignmentRule (u.text ++ rest) = some (u.kept, rest) := by
  obtain ⟨c, cs, h1, h2, h3⟩ := hn
  have hw : word (u.var.toList ++ (['='] ++ (u.expr.encode ++ rest))) = some (u.var.toList, ['='] ++ (u.expr.encode ++ rest)) :=
    word_append ⟨c, cs, h1, h2, h3⟩ (ends_cons (by decide))
  have hends : Ends rest := by
    rcases h with rfl | ⟨r, rfl⟩
    · exact ends_nil
    · exact ends_cons (by decide)
  have hop : arithOp (skip rest) = none := by
    rcases h with rfl | ⟨r, rfl⟩
    · rfl
    · rfl
  obtain ⟨c', cs', h4, h5⟩ := he.head
  have hsk : skip (u.expr.encode ++ rest) = u.expr.encode ++ rest := by rw [h4]; exact skip_word h5
  have hr := Arith.reads he hends hop (u.expr.encode ++ rest).length
  have heq : oneOf [(['='], ()), ([':', '='], ())] (skip (['='] ++ (u.expr.encode ++ rest))) =
      some ((), u.expr.encode ++ rest) := by
    simp [skip, oneOf, lit]
  unfold assignmentRule Update.text
  rw [List.append_assoc, List.append_assoc, hw]
  simp only [Option.bind_eq_bind, Option.bind_some, heq, hsk, hr, ok_bind, String.ofList_toList, Update.kept]
  cases u.expr.simplify with
  | ok e => rfl
  | error f => cases f <;> rfl

theorem encodeUpdates_eq (u : Update) (us : List Update) :
    encodeUpdates (some (u :: us)) =
      u.text ++ OpTree.writeTail Update.text (fun _ : Unit => [',', ' ']) (us.map fun u => ((), u)) := by
  induction us generalizing u with
  | nil => simp [encodeUpdates, OpTree.writeTail, Update.text]
  | cons v us ih =>
    have h1 : encodeUpdates (some (u :: v :: us)) = u.text ++ ([',', ' '] ++ encodeUpdates (some (v :: us))) := by
      simp [encodeUpdates, Update.text]
    rw [h1, ih v]
    simp [OpTree.writeTail]

theorem updates_read {us : List Update} (hne : us ≠ []) (h : ∀ u ∈ us, IsName u.var ∧ u.expr.Flat 1) :
    parseUpdates (encodeUpdates (some us)) = us.mapM Update.kept := by
  obtain ⟨u, us, rfl⟩ := List.exists_cons_of_ne_nil hne
  have hstart : ∀ v ∈ u :: us, ∀ rest, skip (v.text ++ rest) = v.text ++ rest := by
    intro v hv rest
    obtain ⟨c, cs, h1, h2, h3⟩ := (h v hv).1
    simp only [Update.text, h1, List.cons_append]
    exact skip_word (isWord_of_alpha h2)
  let tail := us.map fun u => ((), u)
  have hmem : ∀ p ∈ tail, p.2 ∈ u :: us := by
    intro p hp
    obtain ⟨v, hv, rfl⟩ := List.mem_map.1 hp
    exact List.mem_cons_of_mem _ hv
  have hafter : AfterUpdate (OpTree.writeTail Update.text (fun _ : Unit => [',', ' ']) tail) := by
    match tail with
    | [] => exact .inl rfl
    | p :: l => exact .inr ⟨_, rfl⟩
  have hmany := many_reads (op := oneOf [([','], ())]) (term := assignmentRule) (leafText := Update.text)
    (opText := fun _ : Unit => [',', ' ']) (sem := Update.kept) (Stop := AfterUpdate) tail
    (fun p hp rest hr => update_reads (h _ (hmem p hp)).1 (h _ (hmem p hp)).2 hr)
    (by
      intro p hp rest
      refine ⟨' ' :: (p.2.text ++ rest), by simp [skip, oneOf, lit], ?_⟩
      simp only [skip]
      exact hstart _ (hmem p hp) rest)
    (fun p _ rest => .inr ⟨rest, rfl⟩) [] (.inl rfl) (by intro o r hr; cases hr)
    (OpTree.writeTail Update.text (fun _ : Unit => [',', ' ']) tail).length (writeTail_length (by simp) _)
  rw [List.append_nil] at hmany
  have hfirst := update_reads (h u (List.mem_cons_self ..)).1 (h u (List.mem_cons_self ..)).2 hafter
  unfold parseUpdates updateRule
  rw [encodeUpdates_eq]
  simp only [hstart u (List.mem_cons_self ..), tail] at hmany hfirst ⊢
  rw [hfirst]
  simp only [hmany]
  have : skip (optLit [','] (skip [])) = [] := rfl
  simp only [this, if_true, List.map_map]
  rw [List.mapM_cons, List.mapM_cons]
  have : List.mapM id (List.map ((fun x : Unit × Res Update => x.2) ∘ (fun p => (p.1, p.2.kept)) ∘ fun u => ((), u)) us) =
      List.mapM Update.kept us := by
    rw [List.mapM_map]; rfl
  rw [this]; rfl

/-- **C52 (part), for saving.** Updates that assign names or numbers are read back as they were written. -/
theorem C52_roundtrip_partial {us : List Update} (hne : us ≠ [])
    (h : ∀ u ∈ us, IsName u.var ∧ ((∃ n, u.expr = .var n ∧ IsName n) ∨ ∃ c, u.expr = .int c ∧ 0 ≤ c ∧ c ≤ 2147483647)) :
    decodeUpdates (encodeUpdates (some us)) = .ok (some us) := by
  have hflat : ∀ u ∈ us, IsName u.var ∧ u.expr.Flat 1 := by
    intro u hu
    refine ⟨(h u hu).1, ?_⟩
    rcases (h u hu).2 with ⟨n, he, hn⟩ | ⟨c, he, hc⟩
    · rw [he]; exact hn
    · rw [he]; exact hc
  have hkept : ∀ u ∈ us, u.kept = .ok u := by
    intro u hu
    obtain ⟨x, e⟩ := u
    rcases (h _ hu).2 with ⟨n, he, hn⟩ | ⟨c, he, hc⟩
    · dsimp only at he; subst he; rfl
    · dsimp only at he; subst he; rfl
  have hmap : ∀ l : List Update, (∀ u ∈ l, u.kept = .ok u) → l.mapM Update.kept = .ok l := by
    intro l hl
    induction l with
    | nil => rfl
    | cons u l ih =>
      rw [List.mapM_cons, hl u (List.mem_cons_self ..), ih fun v hv => hl v (List.mem_cons_of_mem _ hv)]; rfl
  have hnil : encodeUpdates (some us) ≠ [] := by
    obtain ⟨u, us, rfl⟩ := List.exists_cons_of_ne_nil hne
    rw [encodeUpdates_eq]
    simp [Update.text]
  unfold decodeUpdates
  rw [if_neg hnil, updates_read hne hflat, hmap us hkept]
  rfl

/-- **C52 (part), for constants.** An update that assigns a constant expression is read as the assignment of its value, unless
a number on the way does not fit 32 bits: then reading stops with a panic.  Here `us` are the updates as written and `vs`
the values of their right hand sides.  Not covered, and false: expressions with names and operators, see
`C52_violated_product`, `C52_violated_difference` and `C52_violated_sum`. -/
theorem C52_constant_partial (d : Decls) {us : List Update} {vs : List Int} (hne : us ≠ [])
    (hn : ∀ u ∈ us, IsName u.var ∧ u.expr.Flat 1 ∧ u.expr.clockVarCount = 0)
    (hv : List.Forall₂ (fun u v => constVal d u.expr = some v) us vs) :
    parseUpdates (encodeUpdates (some us)) = .ok (List.zipWith (fun u v => ⟨u.var, .int v⟩) us vs) ∨
      parseUpdates (encodeUpdates (some us)) = .error (.panic "arithmetic overflow") := by
  rw [updates_read hne fun u hu => ⟨(hn u hu).1, (hn u hu).2.1⟩]
  clear hne
  induction hv with
  | nil => exact .inl rfl
  | @cons u v us vs h1 _ ih =>
    have h2 := C43_simplify_partial d u.expr v (hn u (List.mem_cons_self ..)).2.2 h1
    have h3 := ih fun w hw => hn w (List.mem_cons_of_mem _ hw)
    rw [List.mapM_cons]
    rcases h2 with h2 | h2
    · have hk : u.kept = .ok ⟨u.var, .int v⟩ := by simp only [Update.kept, h2]
      rw [hk, ok_bind]
      rcases h3 with h3 | h3
      · left; rw [h3]; rfl
      · right; rw [h3]; rfl
    · right
      have hk : u.kept = .error (.panic "arithmetic overflow") := by simp only [Update.kept, h2]
      rw [hk]; rfl

/-- Updates to which the theorems apply -/
def exUpdates : List Update := [⟨"x", .add (.int 2) (.mul (.int 3) (.int 4))⟩, ⟨"y_1", .dif (.int 3) (.int 3)⟩]

example : encodeUpdates (some exUpdates) = "x=2+3*4, y_1=3-3".toList := by decide +kernel

example : (∀ u ∈ exUpdates, IsName u.var ∧ u.expr.Flat 1 ∧ u.expr.clockVarCount = 0) ∧
    List.Forall₂ (fun u v => constVal ⟨[], []⟩ u.expr = some v) exUpdates [14, 0] := by
  have x : IsName "x" := isName_of rfl (by decide)
  have y : IsName "y_1" := isName_of rfl (by decide)
  refine ⟨?_, .cons rfl (.cons rfl .nil)⟩
  intro u hu
  simp only [exUpdates, List.mem_cons, List.not_mem_nil, or_false] at hu
  rcases hu with rfl | rfl
  · exact ⟨x, by simp [Arith.Flat], rfl⟩
  · exact ⟨y, by simp [Arith.Flat], rfl⟩

example : parseUpdates (encodeUpdates (some exUpdates)) = .ok [⟨"x", .int 14⟩, ⟨"y_1", .int 0⟩] := by decide +kernel

end Reveaal
