import Mathlib.Data.List.Sort
import Verif.Model.Recipe
import Mathlib.Data.List.Dedup

/-!
# Clock reduction

Models the clock analysis (`src/TransitionSystems/transition_system.rs`), the removal and merging of clocks
(`src/ModelObjects/component.rs`) and the reduction of recipes (`src/System/extract_system_rep.rs`).

Sets and maps of indices are lists in iteration order; the order in which a hash set or map is traversed is
chosen by a `HashOrder`.
-/

namespace Reveaal
open ZoneLib

/-- The iteration orders of hash sets and maps; the number tells different traversals apart.
(std `HashSet`/`HashMap` in transition_system.rs:170-450 and extract_system_rep.rs:370-495) -/
structure HashOrder where
  order : {α : Type} → Nat → List α → List α
  perm : ∀ {α : Type} (k : Nat) (l : List α), (order k l).Perm l

/-- specifics.rs:282-289 `Display for SpecialLocation` -/
def SpecialLoc.toStr : SpecialLoc → String
  | .universal => "[Universal]"
  | .error => "[Error]"

/-- location_id.rs:43-58 `get_unique_string` -/
def LocId.uniqueString : LocId → String
  | .composition a b => "(" ++ a.uniqueString ++ "||" ++ b.uniqueString ++ ")"
  | .conjunction a b => "(" ++ a.uniqueString ++ "&&" ++ b.uniqueString ++ ")"
  | .quotient a b => "(" ++ a.uniqueString ++ "\\" ++ b.uniqueString ++ ")"
  | .any => "_"
  | .simple name => name
  | .special s => s.toStr

/-- The clocks in the constraints: transition_system.rs:193-201, 216-223 -/
def Disj.clocksOf (d : Disj) : List Nat := d.flatMap fun c => c.flatMap fun k => [k.i, k.j]

/-- transition_system.rs:293-297 `ClockAnalysisNode` -/
structure ClockNode where
  deps : List Nat
  id : String

/-- transition_system.rs:299-306 `ClockAnalysisEdge` -/
structure ClockEdge where
  source : String
  target : String
  deps : List Nat
  updates : List CUpdate
  action : String

/-- transition_system.rs:308-313 `ClockAnalysisGraph`; the dimension is that of the zones -/
structure ClockGraph where
  nodes : List (String × ClockNode)
  edges : List ClockEdge

section Graph
variable {F : Type} [ZoneLib F]

/-- transition_system.rs:186-202, the node of a location -/
def ClockNode.ofLoc (l : LocTree F) : ClockNode :=
  ⟨match l.inv with
    | some i => (minimal i).clocksOf
    | none => [], l.id.uniqueString⟩

/-- transition_system.rs:207-225, the edge of a transition -/
def ClockEdge.ofTransition (l : LocTree F) (a : String) (t : Transition F) : ClockEdge :=
  ⟨l.id.uniqueString, t.target.id.uniqueString, (minimal t.guard).clocksOf, t.updates, a⟩

/-- transition_system.rs:206-232, one transition: the worklist and the graph afterwards -/
def visitTransition (l : LocTree F) (a : String) (x : List (LocTree F) × ClockGraph) (t : Transition F) :
    List (LocTree F) × ClockGraph :=
  let g : ClockGraph := { x.2 with edges := x.2.edges ++ [ClockEdge.ofTransition l a t] }
  if (g.nodes.map (·.1)).contains t.target.id.uniqueString then (x.1, g) else (x.1 ++ [t.target], g)

/-- transition_system.rs:204-233, the transitions of one action -/
def visitAction (ts : TS F) (l : LocTree F) (x : List (LocTree F) × ClockGraph) (a : String) :
    Res (List (LocTree F) × ClockGraph) := do
  let trans ← ts.nextIfAvailable l a
  .ok (trans.foldl (visitTransition l a) x)

/-- transition_system.rs:182-235 `find_edges_and_nodes`; `acts` is the iteration order of the action set.  The
loop runs until the worklist is empty, the model has `fuel` steps. -/
def findEdgesAndNodes (ts : TS F) (acts : List String) : Nat → List (LocTree F) → ClockGraph → Res ClockGraph
  | _, [], g => .ok g
  | 0, _ :: _, _ => .error .fuel
  | fuel + 1, l :: wl, g => do
    let g : ClockGraph := { g with nodes := hmInsert l.id.uniqueString (ClockNode.ofLoc l) g.nodes }
    let (wl, g) ← acts.foldlM (visitAction ts l) (wl, g)
    findEdgesAndNodes ts acts fuel wl g

/-- transition_system.rs:172-177 `get_analysis_graph` -/
def analysisGraph (ts : TS F) (acts : List String) (fuel : Nat) : Res ClockGraph := do
  match ← ts.initialLoc with
  | none => .error (.panic "called `Option::unwrap()` on a `None` value")
  | some l => findEdgesAndNodes ts acts fuel [l] ⟨[], []⟩

end Graph

/-- transition_system.rs:266-275 `ClockReductionInstruction` -/
inductive ClockInstr where
  | remove (clock : Nat)
  | replace (clock : Nat) (clocks : List Nat)
deriving DecidableEq, Repr

namespace ClockInstr

/-- transition_system.rs:278-283 `clocks_removed_count` -/
def removedCount : ClockInstr → Nat
  | remove _ => 1
  | replace _ cs => cs.length

/-- transition_system.rs:285-290 `get_clock_index` -/
def clockIndex : ClockInstr → Nat
  | remove c => c
  | replace c _ => c

/-- The derived `PartialEq`: sets are compared as sets (transition_system.rs:265) -/
def same : ClockInstr → ClockInstr → Bool
  | remove c, remove c' => decide (c = c')
  | replace c cs, replace c' cs' => decide (c = c') && cs.all (cs'.contains ·) && cs'.all (cs.contains ·)
  | _, _ => false

end ClockInstr

namespace ClockGraph

/-- transition_system.rs:354-374 `find_used_clocks` -/
def usedClocks (ord : HashOrder) (g : ClockGraph) : List Nat :=
  ord.order 0 (((g.edges.flatMap (·.deps)) ++ (g.nodes.flatMap (·.2.deps))).filter (· ≠ 0)).dedup

/-- `u32::MAX` (transition_system.rs:406, 429) -/
def u32max : Nat := 4294967295

/-- transition_system.rs:399-405: the value assigned to each clock, as `u32` -/
def assigned (us : List CUpdate) : List (Nat × Nat) :=
  us.foldl (fun m u => hmInsert u.clock (u.value % 4294967296).toNat m) []

/-- transition_system.rs:418-432: the key of the new group of a clock that is in the group with index `i` -/
def groupKey (us : List CUpdate) (i clock : Nat) : Nat :=
  match (assigned us).lookup clock with
  | some v => u32max + i * (u32max * 2) + v
  | none => i

/-- transition_system.rs:442-447 `get_or_insert`, and inserting into the set -/
def insertInto (key clock : Nat) : List (Nat × List Nat) → List (Nat × List Nat)
  | [] => [(key, [clock])]
  | (k, cs) :: m =>
    if k = key then (k, if clock ∈ cs then cs else cs ++ [clock]) :: m else (k, cs) :: insertInto key clock m

/-- transition_system.rs:415-433: the new groups by key -/
def splitGroups (us : List CUpdate) (groups : List (List Nat)) : List (Nat × List Nat) :=
  (groups.zipIdx.flatMap fun p => p.1.map fun c => (groupKey us p.2 c, c)).foldl
    (fun m x => insertInto x.1 x.2 m) []

/-- transition_system.rs:391-440, the loop over the edges; `k` counts the traversals of hash maps -/
def refineGroups (ord : HashOrder) : List ClockEdge → Nat → List (List Nat) → List (List Nat)
  | [], _, groups => groups
  | e :: es, k, groups =>
    refineGroups ord es (k + 1)
      (((ord.order k (splitGroups e.updates groups)).map (·.2)).filter fun cs => 1 < cs.length)

/-- transition_system.rs:376-440 `find_equivalent_clock_groups` -/
def equivalentGroups (ord : HashOrder) (g : ClockGraph) (used : List Nat) : List (List Nat) :=
  if used.length < 2 || g.edges.isEmpty then [] else refineGroups ord g.edges 2 [used]

/-- `iter().min().unwrap()` (transition_system.rs:343) -/
def minimum : List Nat → Nat
  | [] => 0
  | c :: cs => cs.foldl min c

/-- transition_system.rs:323-352 `find_clock_redundancies` -/
def redundancies (ord : HashOrder) (dim : Nat) (g : ClockGraph) : List ClockInstr :=
  let used := g.usedClocks ord
  let unused := ord.order 1 ((List.range' 1 (dim - 1)).filter fun c => !(used.contains c))
  unused.map .remove ++ (g.equivalentGroups ord used).map fun cs => .replace (minimum cs) (cs.erase (minimum cs))

end ClockGraph

/-- transition_system.rs:237-239 `find_redundant_clocks` -/
def findRedundantClocks {F : Type} [ZoneLib F] (ord : HashOrder) (ts : TS F) (acts : List String) (fuel : Nat) :
    Res (List ClockInstr) := do
  let g ← analysisGraph ts acts fuel
  .ok (g.redundancies ord (dim F))

/-! ## Changing components and recipes -/

namespace Component

/-- component.rs:214-220 `get_clock_name_by_index` -/
def clockName (c : Component) (index : Nat) : Option String :=
  (c.decls.clocks.find? fun p => p.2 = index).map (·.1)

/-- component.rs:123-137, one edge -/
def removeFromEdge (name : String) (e : Edge) : Edge :=
  { e with
    guard := e.guard.map fun g => if g.hasVar name then .bool false else g
    update := e.update.map fun us => us.filter fun u => u.var ≠ name }

/-- component.rs:139-147, one location -/
def removeFromLocation (name : String) (l : Location) : Location :=
  { l with invariant := l.invariant.map fun i => if i.hasVar name then .bool false else i }

/-- component.rs:113-152 `remove_clock` -/
def removeClock (c : Component) (index : Nat) : Res Component :=
  match c.clockName index with
  | none => .error (.panic "Couldn't find clock with index")
  | some name =>
    .ok { c with
      decls := { c.decls with clocks := c.decls.clocks.filter fun p => p.1 ≠ name }
      edges := c.edges.map (removeFromEdge name)
      locations := c.locations.map (removeFromLocation name) }

/-- component.rs:158-177 `replace_clock` -/
def replaceClock (c : Component) (global : Nat) (indices : List Nat) : Component :=
  { c with decls := { c.decls with
      clocks := c.decls.clocks.map fun p => if indices.contains p.2 then (p.1, global) else p } }

end Component

namespace Recipe

/-- `comps.iter_mut().find(p)`: change the first component that satisfies `p`.
(extract_system_rep.rs:243-252) -/
def modifyFirst (p : Component → Bool) (f : Component → Res Component) : Recipe → Res (Option Recipe)
  | composition l r => do
    match ← l.modifyFirst p f with
    | some l => .ok (some (.composition l r))
    | none => do .ok ((← r.modifyFirst p f).map fun r => .composition l r)
  | conjunction l r => do
    match ← l.modifyFirst p f with
    | some l => .ok (some (.conjunction l r))
    | none => do .ok ((← r.modifyFirst p f).map fun r => .conjunction l r)
  | quotient l r q => do
    match ← l.modifyFirst p f with
    | some l => .ok (some (.quotient l r q))
    | none => do .ok ((← r.modifyFirst p f).map fun r => .quotient l r q)
  | component c i =>
    if p c then do .ok (some (.component (← f c) i)) else .ok none

/-- extract_system_rep.rs:241-257, one instruction -/
def reduceClock (r : Recipe) : ClockInstr → Res Recipe
  | .remove i => do
    match ← r.modifyFirst (fun c => c.decls.clocks.any fun p => p.2 = i) (·.removeClock i) with
    | some r => .ok r
    | none => .error (.panic "A component could not be found for clock index")
  | .replace i cs => .ok (r.mapComponents (·.replaceClock i cs))

/-- extract_system_rep.rs:239-258 `reduce_clocks` -/
def reduceClocks (r : Recipe) (ins : List ClockInstr) : Res Recipe := ins.foldlM reduceClock r

end Recipe

/-- extract_system_rep.rs:483-493, the loop over the sorted references: the map `seen` and the next index -/
def compressLoop : List Nat → List (Nat × Nat) → Nat → List (Nat × Nat)
  | [], seen, _ => seen
  | c :: cs, seen, index =>
    match seen.lookup c with
    | some _ => compressLoop cs seen index
    | none => compressLoop cs (hmInsert c index seen) (index + 1)

/-- extract_system_rep.rs:468-493: the new index of every old index -/
def compressMap (clocks : List Nat) : List (Nat × Nat) := compressLoop (clocks.insertionSort (· ≤ ·)) [] 1

/-- Renumber the clocks of a component. (extract_system_rep.rs:469-495) -/
def Component.renumber (m : List (Nat × Nat)) (c : Component) : Component :=
  { c with decls := { c.decls with clocks := c.decls.clocks.map fun p => (p.1, (m.lookup p.2).getD p.2) } }

/-- All clock indices of a recipe's components: extract_system_rep.rs:473-476 -/
def Recipe.allClocks (r : Recipe) : List Nat := r.components.flatMap fun c => c.decls.clocks.map (·.2)

/-- extract_system_rep.rs:468-494 `compress_component_decls`, for the components of one or two recipes.  The
references are sorted and then visited; every visited reference gets the index of its old value, so visiting
them is applying the map to all of them. -/
def compressDecls (rs : List Recipe) : List Recipe :=
  let m := compressMap (rs.flatMap Recipe.allClocks)
  rs.map (·.mapComponents (Component.renumber m))

/-! ## Compiling recipes and reducing their clocks -/

section Compile
variable (F : Type) [ZoneLib F]

/-- The iteration orders and the fuel used when a recipe is compiled, by position in the recipe.
(std hash tables in extract_system_rep.rs:184-225 `compile`) -/
structure CompileEnv where
  locOrder : Nat → List (LocId × LocTree F) → List (LocId × LocTree F)
  checks : List Bool → Orders
  fuel : Nat

variable {F}

/-- The environment of an operand. (extract_system_rep.rs:184-225) -/
def CompileEnv.sub (env : CompileEnv F) (b : Bool) : CompileEnv F :=
  { env with checks := fun p => env.checks (b :: p) }

/-- extract_system_rep.rs:198-224 `_compile`: the system and the new component index.  The dimension is that of
the zones. -/
def Recipe.compile : Recipe → CompileEnv F → Nat → Res (Sys F × Nat)
  | .composition l r, env, i => do
    let (l, i) ← l.compile (env.sub false) i
    let (r, i) ← r.compile (env.sub true) i
    .ok (← Sys.newComposition l r, i)
  | .conjunction l r, env, i => do
    let (l, i) ← l.compile (env.sub false) i
    let (r, i) ← r.compile (env.sub true) i
    .ok (← Sys.newConjunction (env.checks []) env.fuel l r, i)
  | .quotient l r clock, env, i => do
    let (l, i) ← l.compile (env.sub false) i
    let (r, i) ← r.compile (env.sub true) i
    .ok (← Sys.newQuotient env.checks env.fuel l r clock, i)
  | .component c _, env, i => do
    .ok (.comp (← CompComp.compile (env.locOrder i) c i), i + 1)

/-- `*dim -= removed`: panics if the result would be negative (extract_system_rep.rs:386, 419) -/
def subDim (dim removed : Nat) : Res Nat :=
  if removed ≤ dim then .ok (dim - removed) else .error (.panic "attempt to subtract with overflow")

/-- extract_system_rep.rs:410-429 `clock_reduce_single`; `acts` is the iteration order of the actions -/
def clockReduceSingle (env : CompileEnv F) (ord : HashOrder) (acts : Sys F → List String) (r : Recipe) (dim : Nat)
    (q : Option Nat) : Res (Recipe × Nat) := do
  let (s, _) ← r.compile env 0
  let clocks ← findRedundantClocks ord s.ts (acts s) env.fuel
  let clocks := clocks.filter fun i => i.clockIndex ≠ q.getD 0
  let dim ← subDim dim ((clocks.map ClockInstr.removedCount).sum)
  let r ← r.reduceClocks clocks
  let r := ((compressDecls [r]).head?).getD r
  .ok (if q.isSome then r.changeQuotient dim else r, dim)

/-- extract_system_rep.rs:431-466 `filter_redundant_clocks` -/
def filterRedundant (lhs rhs : List ClockInstr) (q : Option Nat) (split : Nat) :
    List ClockInstr × List ClockInstr :=
  let unique := fun (l r : List ClockInstr) (p : Nat → Bool) =>
    l.filter fun i => r.any (i.same ·) && p i.clockIndex && decide (i.clockIndex ≠ q.getD 0)
  (unique lhs rhs fun c => decide (c ≤ split), unique rhs lhs fun c => decide (split < c))

/-- extract_system_rep.rs:362-403 `clock_reduce` with two recipes (the left one has a clock or not: the dimension
is not 0) -/
def clockReduceTwo (env env' : CompileEnv F) (ord ord' : HashOrder) (acts : Sys F → List String) (l r : Recipe)
    (dim : Nat) (q : Option Nat) : Res (Recipe × Recipe × Nat) := do
  let (sl, _) ← l.compile env 0
  let cl ← findRedundantClocks ord sl.ts (acts sl) env.fuel
  let (sr, _) ← r.compile env' 0
  let cr ← findRedundantClocks ord' sr.ts (acts sr) env'.fuel
  let (lc, rc) := filterRedundant cl cr q (l.allClocks.foldl max 0)
  let dim ← subDim dim (((lc ++ rc).map ClockInstr.removedCount).sum)
  let r ← r.reduceClocks rc
  let l ← l.reduceClocks lc
  match compressDecls [l, r] with
  | [l, r] =>
    if q.isSome then .ok (l.changeQuotient dim, r.changeQuotient dim, dim) else .ok (l, r, dim)
  | _ => .error (.panic "unreachable")

/-- extract_system_rep.rs:362-374, the two cases before: no clocks, or one recipe -/
def clockReduce (env env' : CompileEnv F) (ord ord' : HashOrder) (acts : Sys F → List String) (l : Recipe)
    (r : Option Recipe) (dim : Nat) (q : Option Nat) : Res (Recipe × Option Recipe × Nat) :=
  if dim = 0 then .ok (l, r, dim)
  else
    match r with
    | none => do
      let (l, dim) ← clockReduceSingle env ord acts l dim q
      .ok (l, none, dim)
    | some r => do
      let (l, r, dim) ← clockReduceTwo env env' ord ord' acts l r dim q
      .ok (l, some r, dim)

end Compile
end Reveaal
