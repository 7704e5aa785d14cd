import Verif.Model.ClockReduction
import Verif.Lemmas.System

/-! # What is computed without bounded search is never cut off -/

namespace Reveaal
open ZoneLib
variable {F : Type} [ZoneLib F]

/-- The result is not that the steps were used up. -/
def NotCut {α : Type} (x : Res α) : Prop := x ≠ .error .fuel

theorem NotCut.ok {α : Type} (a : α) : NotCut (Except.ok a : Res α) := by intro h; cases h

theorem NotCut.panic {α : Type} (m : String) : NotCut (.error (.panic m) : Res α) := by intro h; cases h

theorem NotCut.err {α : Type} (m : String) : NotCut (.error (.err m) : Res α) := by intro h; cases h

theorem NotCut.bind {α β : Type} {x : Res α} {f : α → Res β} (hx : NotCut x) (hf : ∀ a, NotCut (f a)) :
    NotCut (x >>= f) := by
  cases x with
  | error e => intro h; exact hx (by cases h; rfl)
  | ok a => exact hf a

theorem NotCut.mapM {α β : Type} {f : α → Res β} (hf : ∀ a, NotCut (f a)) : ∀ l : List α, NotCut (l.mapM f)
  | [] => by rw [List.mapM_nil]; exact .ok _
  | a :: l => by rw [List.mapM_cons]; exact (hf a).bind fun _ => (NotCut.mapM hf l).bind fun _ => .ok _

/-- Closes goals about results without recursion. -/
macro "notcut" : tactic => `(tactic| (repeat' (first
  | exact NotCut.ok _ | exact NotCut.panic _ | exact NotCut.err _ | assumption | split
  | (refine NotCut.bind ?_ fun _ => ?_))))

theorem chk_notCut (x : Int) : NotCut (chk x) := by unfold chk; notcut
theorem i32Div_notCut (x y : Int) : NotCut (i32Div x y) := by have := chk_notCut (x.tdiv y); unfold i32Div; notcut
theorem i32Mod_notCut (x y : Int) : NotCut (i32Mod x y) := by unfold i32Mod; notcut
theorem unwrap_notCut {α : Type} (o : Option α) : NotCut (unwrap o) := by unfold unwrap; notcut

macro "notcut2" : tactic => `(tactic| (repeat' (first
  | exact NotCut.ok _ | exact NotCut.panic _ | exact NotCut.err _ | assumption | exact chk_notCut _
  | exact i32Div_notCut _ _ | exact i32Mod_notCut _ _ | exact unwrap_notCut _ | split
  | (refine NotCut.bind ?_ fun _ => ?_))))

namespace Arith
theorem aDif_notCut (l r : Arith) : NotCut (aDif l r) := by unfold aDif; notcut2
theorem aAdd_notCut (l r : Arith) : NotCut (aAdd l r) := by unfold aAdd; notcut2
theorem aMul_notCut (l r : Arith) : NotCut (aMul l r) := by unfold aMul; notcut2
theorem aDiv_notCut (l r : Arith) : NotCut (aDiv l r) := by unfold aDiv; notcut2
theorem aMod_notCut (l r : Arith) : NotCut (aMod l r) := by unfold aMod; notcut2
theorem cloneExpr_notCut (a b : Arith) (m : Option String) : NotCut (cloneExpr a b m) := by unfold cloneExpr; notcut2

theorem moveClockAndVars_notCut (e : Arith) : ∀ op, NotCut (moveClockAndVars e op) := by
  induction e <;> intro op <;> unfold moveClockAndVars
  case clock | var | int => exact .ok _
  all_goals
    rename_i l r ihl ihr
    split
    · refine (cloneExpr_notCut _ _ _).bind fun _ => (ihl _).bind fun _ => .ok _
    · split
      · refine (cloneExpr_notCut _ _ _).bind fun _ => (ihr _).bind fun _ => .ok _
      · exact .ok _

theorem extractLoop_notCut : ∀ (n : Nat) (e : Arith) (op : Op), NotCut (extractLoop n e op)
  | 0, _, _ => .panic _
  | n + 1, e, op => by
    unfold extractLoop
    refine (moveClockAndVars_notCut e op).bind fun x => ?_
    obtain ⟨e', out⟩ := x
    cases out with
    | none => exact .ok _
    | some y => exact (extractLoop_notCut n _ _).bind fun _ => .ok _

theorem rebuildStep_notCut (x : Arith × Op) (out : Arith) : NotCut (rebuildStep x out) := by
  unfold rebuildStep
  split <;> first
    | exact .ok _ | exact aDif_notCut _ _ | exact aAdd_notCut _ _ | exact aMul_notCut _ _ | exact aDiv_notCut _ _
    | exact aMod_notCut _ _

theorem rebuild_notCut : ∀ (l : List (Arith × Op)) (out : Arith), NotCut (rebuild l out)
  | [], _ => .ok _
  | x :: xs, out => (rebuild_notCut xs out).bind fun _ => rebuildStep_notCut _ _

theorem simplifyHelper_notCut (e : Arith) : NotCut (simplifyHelper e) := by
  induction e <;> unfold simplifyHelper
  case clock | var | int => exact .ok _
  all_goals
    rename_i l r ihl ihr
    refine ihl.bind fun _ => ihr.bind fun _ => ?_
    split
    notcut2

theorem foldLoop_notCut : ∀ (n : Nat) (e : Arith), NotCut (foldLoop n e)
  | 0, _ => .panic _
  | n + 1, e => by
    unfold foldLoop
    refine (simplifyHelper_notCut e).bind fun x => ?_
    obtain ⟨e', c⟩ := x
    cases c
    · exact .ok _
    · exact foldLoop_notCut n _

theorem simplify_notCut (e : Arith) : NotCut e.simplify :=
  (extractLoop_notCut _ _ _).bind fun _ => (rebuild_notCut _ _).bind fun _ => foldLoop_notCut _ _

theorem replaceVars_notCut (d : Decls) (e : Arith) : NotCut (replaceVars d e) := by
  induction e with
  | dif l r ihl ihr => exact ihl.bind fun _ => ihr.bind fun _ => aDif_notCut _ _
  | add l r ihl ihr => exact ihl.bind fun _ => ihr.bind fun _ => aAdd_notCut _ _
  | mul l r ihl ihr => exact ihl.bind fun _ => ihr.bind fun _ => aMul_notCut _ _
  | div l r ihl ihr => exact ihl.bind fun _ => ihr.bind fun _ => aDiv_notCut _ _
  | mod l r ihl ihr => exact ihl.bind fun _ => ihr.bind fun _ => aMod_notCut _ _
  | clock x => exact .ok _
  | var n => unfold replaceVars; notcut
  | int i => exact .ok _

theorem getConst_notCut (d : Decls) (e : Arith) : NotCut (getConst d e) := by
  induction e with
  | dif l r ihl ihr => exact ihl.bind fun _ => ihr.bind fun _ => chk_notCut _
  | add l r ihl ihr => exact ihl.bind fun _ => ihr.bind fun _ => chk_notCut _
  | mul l r ihl ihr => exact ihl.bind fun _ => ihr.bind fun _ => chk_notCut _
  | div l r ihl ihr => exact ihl.bind fun _ => ihr.bind fun _ => i32Div_notCut _ _
  | mod l r ihl ihr => exact ihl.bind fun _ => ihr.bind fun _ => i32Mod_notCut _ _
  | clock x => exact .ok _
  | var n => exact .ok _
  | int i => exact .ok _

end Arith

theorem combineClocks_notCut (a b : Clk) (c : Int) (s : Bool) : NotCut (combineClocks a b c s) := by
  unfold combineClocks; notcut

theorem getClockVal_notCut (e : Arith) (n : Nat) (b : Bool) : NotCut (getClockVal e n b) := by
  fun_induction getClockVal e n b <;> notcut

theorem simplifiedIndices_notCut (d : Decls) (l r : Arith) : NotCut (simplifiedIndices d l r) := by
  unfold simplifiedIndices
  dsimp only
  split
  · exact .err _
  split
  · exact .err _
  refine (Arith.getConst_notCut _ _).bind fun _ => (Arith.getConst_notCut _ _).bind fun _ =>
    (chk_notCut _).bind fun _ => ?_
  split <;> repeat' (first
    | exact NotCut.ok _ | exact NotCut.panic _ | exact combineClocks_notCut _ _ _ _ | exact getClockVal_notCut _ _ _
    | exact unwrap_notCut _ | split | (refine NotCut.bind ?_ fun _ => ?_))

theorem getIndices_notCut (d : Decls) (l r : Arith) : NotCut (getIndices d l r) :=
  (Arith.replaceVars_notCut _ _).bind fun _ => (Arith.simplify_notCut _).bind fun _ =>
    (Arith.replaceVars_notCut _ _).bind fun _ => (Arith.simplify_notCut _).bind fun _ => simplifiedIndices_notCut _ _ _

theorem applyConstraints_notCut (d : Decls) (g : BoolE) : ∀ fed : F, NotCut (applyConstraints d g fed) := by
  induction g <;> intro fed <;> unfold applyConstraints <;> split <;> try exact .ok _
  case and ihl ihr _ => exact (ihl _).bind fun _ => ihr _
  case or ihl ihr _ => exact (ihl _).bind fun _ => (ihr _).bind fun _ => .ok _
  case eq => exact (getIndices_notCut _ _ _).bind fun _ => (chk_notCut _).bind fun _ => .ok _
  case bool b _ => cases b <;> exact .ok _
  all_goals exact (getIndices_notCut _ _ _).bind fun _ => .ok _

theorem orPanic_notCut {α : Type} {x : Res α} (h : NotCut x) : NotCut (orPanic x) := by
  unfold orPanic
  split
  · exact .ok _
  · exact .panic _
  · exact .panic _
  · exact h

theorem simple_notCut (d : Decls) (l : Location) : NotCut (LocTree.simple (F := F) d l) := by
  unfold LocTree.simple Location.compileInv
  refine NotCut.bind ?_ fun _ => .ok _
  split
  · exact (orPanic_notCut (applyConstraints_notCut _ _ _)).bind fun _ => .ok _
  · exact .ok _

theorem fromEdge_notCut (c : Component) (e : Edge) : NotCut (Transition.fromEdge (F := F) c e) := by
  unfold Transition.fromEdge
  refine NotCut.bind ?_ fun _ => (simple_notCut _ _).bind fun _ => NotCut.bind ?_ fun _ => NotCut.bind ?_ fun _ => .ok _
  · unfold Component.locationByName; notcut
  · unfold Edge.compileUpdates
    split
    · refine NotCut.mapM (fun u => ?_) _
      unfold CUpdate.compile; notcut
    · exact .ok _
  · unfold Edge.applyGuard
    split
    · exact orPanic_notCut (applyConstraints_notCut _ _ _)
    · exact .ok _

omit [ZoneLib F] in
theorem pushEdge_notCut (id : LocId) (x : String × Transition F) :
    ∀ m : List (LocId × List (String × Transition F)), NotCut (CompComp.pushEdge id x m)
  | [] => .panic _
  | (k, es) :: m => by
    unfold CompComp.pushEdge
    split
    · exact .ok _
    · exact (pushEdge_notCut id x m).bind fun _ => .ok _

theorem buildEdges_notCut (c : Component) :
    ∀ (es : List Edge) (m : List (LocId × List (String × Transition F))), NotCut (CompComp.buildEdges c es m)
  | [], _ => .ok _
  | e :: es, m => (fromEdge_notCut c e).bind fun _ => (pushEdge_notCut _ _ _).bind fun _ => buildEdges_notCut c es _

theorem compile_notCut (order : List (LocId × LocTree F) → List (LocId × LocTree F)) (c : Component) (id : Nat) :
    NotCut (CompComp.compile order c id) := by
  unfold CompComp.compile CompComp.compileWith
  split
  · exact .err _
  · refine NotCut.bind ?_ fun _ => (buildEdges_notCut _ _ _).bind fun _ => .ok _
    unfold CompComp.buildLocations
    exact (NotCut.mapM (simple_notCut _) _).bind fun _ => .ok _

omit [ZoneLib F] in
theorem newComposition_notCut (l r : Sys F) : NotCut (Sys.newComposition l r) := by
  unfold Sys.newComposition; dsimp only; notcut

omit [ZoneLib F] in
theorem newConjunctionUnchecked_notCut (l r : Sys F) : NotCut (Sys.newConjunctionUnchecked l r) := by
  unfold Sys.newConjunctionUnchecked; notcut

omit [ZoneLib F] in
theorem newQuotientUnchecked_notCut (t s : Sys F) (q : Nat) : NotCut (Sys.newQuotientUnchecked t s q) := by
  unfold Sys.newQuotientUnchecked; dsimp only; notcut

end Reveaal
