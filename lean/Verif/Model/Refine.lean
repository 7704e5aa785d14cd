import Verif.Model.LocalConsistency

/-!
# The refinement check

Models `src/System/refine.rs`, `src/DataTypes/statepair_list.rs` and `src/ModelObjects/statepair.rs`.

The main loop runs until the waiting list is empty; the model gives it `fuel` and answers `Fail.fuel` when
it is used up, which is never counted as a verdict.  The two sets of actions the loop iterates over are
built once and not changed, so their iteration order is the same in every round: `ordO` and `ordI`.
Logging is not modelled.
-/

namespace Reveaal
open ZoneLib
variable {F : Type} [ZoneLib F]

/-- statepair.rs:7-12 `struct StatePair` (the zone is always present between calls, as in `State`) -/
structure StatePair (F : Type) where
  l1 : LocTree F
  l2 : LocTree F
  zone : F

namespace StatePair

/-- The pair of location identifiers used as hash map key (statepair_list.rs:26-28, 104) -/
def key (p : StatePair F) : LocId × LocId := (p.l1.id, p.l2.id)

/-- statepair.rs:70-79 `extrapolate_max_bounds` -/
def extrapolate (ts1 ts2 : TS F) (p : StatePair F) : Res (StatePair F) := do
  let b1 ← ts1.localBounds p.l1
  let b2 ← ts2.localBounds p.l2
  .ok ⟨p.l1, p.l2, ZoneLib.extrapolate p.zone (Bounds.add b1 b2)⟩

end StatePair

/-- statepair_list.rs:8 `PassedStateListFed`, the passed list in use -/
abbrev PassedFed (F : Type) := List ((LocId × LocId) × F)

namespace PassedFed

/-- statepair_list.rs:118-127 `put`.  `expensive_reduce` rewrites a federation without changing the set of
valuations and is left out. -/
def put (m : PassedFed F) (p : StatePair F) : PassedFed F :=
  match m.lookup p.key with
  | some f => hmInsert p.key (append p.zone f) m
  | none => hmInsert p.key p.zone m

/-- statepair_list.rs:129-140 `has` -/
def has (m : PassedFed F) (p : StatePair F) : Bool :=
  match m.lookup p.key with
  | some f => subsetEq p.zone f
  | none => false

/-- statepair_list.rs:142-147 `zones` -/
def zones (m : PassedFed F) (k : LocId × LocId) : Res (List F) :=
  match m.lookup k with
  | some f => .ok [f]
  | none => .error (.panic "No zones for key")

end PassedFed

/-- statepair_list.rs:9 `PassedStateListVec` -/
abbrev PassedVec (F : Type) := List ((LocId × LocId) × List F)

namespace PassedVec

/-- statepair_list.rs:24-33 `put` -/
def put (m : PassedVec F) (p : StatePair F) : PassedVec F :=
  match m.lookup p.key with
  | some v => hmInsert p.key (v ++ [p.zone]) m
  | none => hmInsert p.key [p.zone] m

/-- statepair_list.rs:35-46 `has` -/
def has (m : PassedVec F) (p : StatePair F) : Bool :=
  match m.lookup p.key with
  | some v => v.any fun f => subsetEq p.zone f
  | none => false

end PassedVec

/-- statepair_list.rs:12-15 `struct DepthFirstWaitingStateList` -/
structure Waiting (F : Type) where
  queue : List (StatePair F)
  map : List ((LocId × LocId) × List F)

namespace Waiting

/-- statepair_list.rs:93-98 `new` -/
def new : Waiting F := ⟨[], []⟩

/-- statepair_list.rs:57-67 `put` -/
def put (w : Waiting F) (p : StatePair F) : Waiting F :=
  match w.map.lookup p.key with
  | some v => ⟨p :: w.queue, hmInsert p.key (p.zone :: v) w.map⟩
  | none => ⟨p :: w.queue, hmInsert p.key [p.zone] w.map⟩

/-- statepair_list.rs:68-79 `has` -/
def has (w : Waiting F) (p : StatePair F) : Bool :=
  match w.map.lookup p.key with
  | some v => v.any fun f => subsetEq p.zone f
  | none => false

/-- statepair_list.rs:100-109 `pop` -/
def pop (w : Waiting F) : Res (Option (StatePair F) × Waiting F) :=
  match w.queue with
  | [] => .ok (none, w)
  | p :: q =>
    match w.map.lookup p.key with
    | some (_ :: v) => .ok (some p, ⟨q, hmInsert p.key v w.map⟩)
    | some [] => .error (.panic "called `Option::unwrap()` on a `None` value")
    | none => .ok (some p, ⟨q, w.map⟩)

/-- statepair_list.rs:111-113 `is_empty` -/
def isEmpty (w : Waiting F) : Bool := w.queue.isEmpty

end Waiting

/-- query_failures.rs:173-203 `enum RefinementFailure` with the `RefinementPrecondition`s.  What the
failure says about the systems is reduced to the data it is built from. -/
inductive RefFailure (F : Type) where
  | precheck (left : Bool) (f : ConsFailure F)
  /-- the two sets are not disjoint: `inputs` of one side (the left if the flag is set) and `outputs` of
  the other -/
  | notDisjoint (inputsLeft : Bool)
  /-- the inputs of the left side are not a subset of those of the right, or the outputs of the right not
  a subset of those of the left -/
  | notSubset (inputs : Bool)
  | emptyChild (left : Bool)
  | emptyInitial
  | cannotMatch (action : String) (pair : StatePair F)
  | cutsDelays (action : String) (pair : StatePair F)

/-- refine.rs:16-21 `enum StatePairResult` -/
inductive PairResult where
  | valid
  | emptyTransition2s
  | notEmptyResult
  | cutsDelaySolutions
deriving DecidableEq

/-- refine.rs:23-39 `StatePairResult::check` -/
def PairResult.check (r : PairResult) (a : String) (p : StatePair F) : Option (RefFailure F) :=
  match r with
  | .valid => none
  | .emptyTransition2s | .notEmptyResult => some (.cannotMatch a p)
  | .cutsDelaySolutions => some (.cutsDelays a p)

/-- refine.rs:71-76 `struct RefinementContext` (the mutable part) -/
structure RefCtx (F : Type) where
  passed : PassedFed F
  waiting : Waiting F

/-- transition_system.rs:78-81 `next_outputs` (the `debug_assert` is a panic) -/
def TS.nextOutputs (ts : TS F) (l : LocTree F) (a : String) : Res (List (Transition F)) :=
  if ts.outputs.contains a then ts.next l a
  else .error (.panic "assertion failed: self.get_output_actions().contains(action)")

/-- transition_system.rs:83-86 `next_inputs` -/
def TS.nextInputs (ts : TS F) (l : LocTree F) (a : String) : Res (List (Transition F)) :=
  if ts.inputs.contains a then ts.next l a
  else .error (.panic "assertion failed: self.get_input_actions().contains(action)")

namespace Refine

/-- refine.rs:53-69 `extra_actions` for inputs -/
def extraInputs (ts1 ts2 : TS F) : List String := setDiff ts2.inputs ts1.inputs
/-- refine.rs:53-69 `extra_actions` for outputs -/
def extraOutputs (ts1 ts2 : TS F) : List String := setDiff ts1.outputs ts2.outputs

/-- refine.rs:285-289 and 296-300, collecting the allowed federations -/
def guardFed (zone : F) (ts : List (Transition F)) : F :=
  inter (ts.foldl (fun f t => append f t.allowed) empty) zone

/-- refine.rs:331-408 `build_state_pair`; `true` is `BuildResult::Success` -/
def buildPair (ts1 ts2 : TS F) (t1 t2 : Transition F) (cur : StatePair F) (isState1 : Bool)
    (ctx : RefCtx F) : Res (Bool × RefCtx F) :=
  let zone := t2.applyGuards (t1.applyGuards cur.zone)
  if isEmpty zone then .ok (true, ctx) else
  let zone := up (t2.applyUpdates (t1.applyUpdates zone))
  let left := if isState1 then t1.target else t2.target
  let right := if isState1 then t2.target else t1.target
  let sInv := left.applyInvariants zone
  let zone := right.applyInvariants sInv
  if isEmpty zone || isEmpty sInv then .ok (true, ctx) else
  let tInv := down zone
  if !(subsetEq sInv tInv) then .ok (false, ctx) else do
  let new ← StatePair.extrapolate ts1 ts2 ⟨left, right, zone⟩
  if !(ctx.passed.has new) && !(ctx.waiting.has new) then
    .ok (true, ⟨ctx.passed, ctx.waiting.put new⟩)
  else .ok (true, ctx)

/-- refine.rs:319-326, the inner loop of `try_create_new_state_pairs` -/
def tryPairsInner (ts1 ts2 : TS F) (t1 : Transition F) (cur : StatePair F) (isState1 : Bool) :
    List (Transition F) → RefCtx F → Res (Bool × RefCtx F)
  | [], ctx => .ok (true, ctx)
  | t2 :: tl, ctx => do
    match ← buildPair ts1 ts2 t1 t2 cur isState1 ctx with
    | (true, ctx) => tryPairsInner ts1 ts2 t1 cur isState1 tl ctx
    | (false, ctx) => .ok (false, ctx)

/-- refine.rs:311-329 `try_create_new_state_pairs` -/
def tryPairs (ts1 ts2 : TS F) (trans2 : List (Transition F)) (cur : StatePair F) (isState1 : Bool) :
    List (Transition F) → RefCtx F → Res (Bool × RefCtx F)
  | [], ctx => .ok (true, ctx)
  | t1 :: tl, ctx => do
    match ← tryPairsInner ts1 ts2 t1 cur isState1 trans2 ctx with
    | (true, ctx) => tryPairs ts1 ts2 trans2 cur isState1 tl ctx
    | (false, ctx) => .ok (false, ctx)

/-- refine.rs:236-270 `has_valid_state_pairs` with 272-303 `get_guard_fed_for_sides` -/
def validPairs (ts1 ts2 : TS F) (trans1 trans2 : List (Transition F)) (cur : StatePair F)
    (isState1 : Bool) (ctx : RefCtx F) : Res (PairResult × RefCtx F) :=
  let fed1 := guardFed cur.zone trans1
  let fed2 := guardFed cur.zone trans2
  if isEmpty fed1 then .ok (.valid, ctx)
  else if isEmpty fed2 then .ok (.emptyTransition2s, ctx)
  else if !(isEmpty (subtraction fed1 fed2)) then .ok (.notEmptyResult, ctx)
  else do
    match ← tryPairs ts1 ts2 trans2 cur isState1 trans1 ctx with
    | (true, ctx) => .ok (.valid, ctx)
    | (false, ctx) => .ok (.cutsDelaySolutions, ctx)

/-- refine.rs:150-163, the transitions of the right side for an output -/
def outputs2 (ts1 ts2 : TS F) (cur : StatePair F) (a : String) : Res (List (Transition F)) :=
  if (extraOutputs ts1 ts2).contains a then .ok [Transition.withoutId cur.l2]
  else ts2.nextOutputs cur.l2 a

/-- refine.rs:178-187, the transitions of the left side for an input -/
def inputs1 (ts1 ts2 : TS F) (cur : StatePair F) (a : String) : Res (List (Transition F)) :=
  if (extraInputs ts1 ts2).contains a then .ok [Transition.withoutId cur.l1]
  else ts1.nextInputs cur.l1 a

/-- refine.rs:147-174, the loop over the outputs -/
def outputLoop (ts1 ts2 : TS F) (cur : StatePair F) :
    List String → RefCtx F → Res (Option (RefFailure F) × RefCtx F)
  | [], ctx => .ok (none, ctx)
  | a :: as, ctx => do
    let o1 ← ts1.nextOutputs cur.l1 a
    let o2 ← outputs2 ts1 ts2 cur a
    let (r, ctx) ← validPairs ts1 ts2 o1 o2 cur true ctx
    match r.check a cur with
    | some f => .ok (some f, ctx)
    | none => outputLoop ts1 ts2 cur as ctx

/-- refine.rs:176-199, the loop over the inputs -/
def inputLoop (ts1 ts2 : TS F) (cur : StatePair F) :
    List String → RefCtx F → Res (Option (RefFailure F) × RefCtx F)
  | [], ctx => .ok (none, ctx)
  | a :: as, ctx => do
    let i1 ← inputs1 ts1 ts2 cur a
    let i2 ← ts2.nextInputs cur.l2 a
    let (r, ctx) ← validPairs ts1 ts2 i2 i1 cur false ctx
    match r.check a cur with
    | some f => .ok (some f, ctx)
    | none => inputLoop ts1 ts2 cur as ctx

/-- refine.rs:142-200, the main loop -/
def mainLoop (ts1 ts2 : TS F) (ordO ordI : List String) :
    Nat → RefCtx F → Res (Option (RefFailure F) × RefCtx F)
  | 0, _ => .error .fuel
  | fuel + 1, ctx =>
    if ctx.waiting.isEmpty then .ok (none, ctx) else do
    let (p, waiting) ← ctx.waiting.pop
    let cur ← unwrap p
    let ctx : RefCtx F := ⟨ctx.passed.put cur, waiting⟩
    match ← outputLoop ts1 ts2 cur ordO ctx with
    | (some f, ctx) => .ok (some f, ctx)
    | (none, ctx) =>
      match ← inputLoop ts1 ts2 cur ordI ctx with
      | (some f, ctx) => .ok (some f, ctx)
      | (none, ctx) => mainLoop ts1 ts2 ordO ordI fuel ctx

/-- refine.rs:437-453, the alphabet tests of `check_preconditions` -/
def checkAlphabets (ts1 ts2 : TS F) : Option (RefFailure F) :=
  if !(setDisjoint ts1.inputs ts2.outputs) then some (.notDisjoint true)
  else if !(setDisjoint ts2.inputs ts1.outputs) then some (.notDisjoint false)
  else if !(ts1.inputs.all fun a => ts2.inputs.contains a) then some (.notSubset true)
  else if !(ts2.outputs.all fun a => ts1.outputs.contains a) then some (.notSubset false)
  else none

/-- refine.rs:109-201, everything after the preconditions, for the two initial locations -/
def explore (ts1 ts2 : TS F) (ordO ordI : List String) (fuel : Nat) : Res (Option (RefFailure F)) := do
  match ← ts1.initialLoc with
  | none =>
    match ← ts2.initialLoc with
    | none => .ok none
    | some _ => .ok (some (.emptyChild true))
  | some l1 =>
    match ← ts2.initialLoc with
    | none => .ok (some (.emptyChild false))
    | some l2 =>
      let zone := l2.applyInvariants (l1.applyInvariants init)
      if isEmpty zone then .ok (some .emptyInitial) else do
      let p ← StatePair.extrapolate ts1 ts2 ⟨l1, l2, zone⟩
      let (r, _) ← mainLoop ts1 ts2 ordO ordI fuel ⟨[], Waiting.new.put p⟩
      .ok r

end Refine

/-- refine.rs:90-213 `check_refinement`, with 424-454 `check_preconditions` and 410-422
`prepare_init_state` -/
def checkRefinement (s1 s2 : Sys F) (ord1 ord2 : List Bool → Orders) (ordO ordI : List String)
    (fuel : Nat) : Res (Option (RefFailure F)) := do
  match ← s1.precheck ord1 fuel with
  | some f => .ok (some (.precheck true f))
  | none =>
    match ← s2.precheck ord2 fuel with
    | some f => .ok (some (.precheck false f))
    | none =>
      match Refine.checkAlphabets s1.ts s2.ts with
      | some f => .ok (some f)
      | none => Refine.explore s1.ts s2.ts ordO ordI fuel

end Reveaal
