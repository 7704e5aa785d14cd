import Verif.Model.System

/-!
# Splitting a path into one list of edges per component

Models `src/TransitionSystems/transition_id.rs`.
-/

namespace Reveaal

namespace TransId

/-- transition_id.rs:54-58, `current_leaves[index].push(..)` -/
def pushAt (x : TransId) : Nat → List (List TransId) → Res (List (List TransId))
  | _, [] => .error (.panic "index out of bounds")
  | 0, c :: cs => .ok ((c ++ [x]) :: cs)
  | n + 1, c :: cs => do .ok (c :: (← pushAt x n cs))

/-- transition_id.rs:53-60 -/
def pushLeaf (x : TransId) (cur : List (List TransId)) (index : Nat) : Res (List (List TransId) × Nat) := do
  .ok (← pushAt x index (if cur.length ≤ index then cur ++ [[]] else cur), index)

mutual
/-- transition_id.rs:33-62 `get_leaves_helper`: the leaves after the call, and the index returned -/
def leavesHelper : TransId → List (List TransId) → Nat → Res (List (List TransId) × Nat)
  | .conjunction l r, cur, index | .composition l r, cur, index => do
    let (cur, indexLeft) ← leavesHelper l cur index
    leavesHelper r cur (indexLeft + 1)
  | .quotient l r, cur, index => do
    let (cur, indexLeft) ← leavesAll l cur index index
    leavesAll r cur (indexLeft + 1) indexLeft
  | .simple n, cur, index => pushLeaf (.simple n) cur index
  | .none, cur, index => pushLeaf .none cur index
/-- transition_id.rs:45-47, 49-51: the loops over one side of a quotient; every element starts at `index`, and `last` is the
index returned if there is no element. -/
def leavesAll : List TransId → List (List TransId) → Nat → Nat → Res (List (List TransId) × Nat)
  | [], cur, _, last => .ok (cur, last)
  | t :: ts, cur, index, _ => do
    let (cur, last) ← leavesHelper t cur index
    leavesAll ts cur index last
end

/-- transition_id.rs:27-31 `get_leaves` -/
def getLeaves (t : TransId) : Res (List (List TransId)) := do
  let (cur, _) ← t.leavesHelper [] 0
  .ok cur

/-- `!matches!(id, TransitionID::None)` (transition_id.rs:108) -/
def isSome : TransId → Bool
  | .none => false
  | _ => true

/-- transition_id.rs:98-111, the loop over the path.  The lengths are compared inside the loop over the leaves, so a
transition without leaves is not rejected; `paths` has `amount` elements. -/
def splitLoop (amount : Nat) : List TransId → List (List (List TransId)) → Res (List (List (List TransId)))
  | [], paths => .ok paths
  | t :: ts, paths => do
    let leaves ← t.getLeaves
    if leaves = [] then splitLoop amount ts paths
    else if leaves.length ≠ amount then .error (.err "Could not split into components")
    else splitLoop amount ts (List.zipWith (fun p l => p ++ [l.filter isSome]) paths leaves)

/-- transition_id.rs:88-114 `split_into_component_lists` -/
def splitPath : List TransId → Res (List (List (List TransId)))
  | [] => .ok []
  | t :: ts => do
    let leaves ← t.getLeaves
    splitLoop leaves.length (t :: ts) (List.replicate leaves.length [])

end TransId
end Reveaal
