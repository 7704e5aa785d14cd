import Verif.Model.Expr

/-!
# The model cache and the user tokens of the server

Models `ModelCache` (`src/DataReader/component_loader.rs`) and `get_user_token`
(`src/ProtobufServer/ecdar_backend.rs`).

Every access to the cache happens under its mutex and none of the code run under the mutex can panic, so
the accesses of concurrent requests happen one after the other and the mutex is never poisoned: an
execution is a sequence of operations.  The external crate `lru` is modelled by a list, most recently used
entry first.
-/

namespace Reveaal

/-- lru 0.8 `LruCache`: entries with the most recently used first (component_loader.rs:28) -/
abbrev Lru (V : Type) := List (Int × V)

namespace Lru
variable {V : Type}

/-- `LruCache::get`: the entry becomes the most recently used one (component_loader.rs:68) -/
def get (es : Lru V) (k : Int) : Option V × Lru V :=
  match es.lookup k with
  | some v => (some v, (k, v) :: es.filter fun e => e.1 ≠ k)
  | none => (none, es)

/-- `LruCache::put`: an existing entry is replaced and becomes the most recently used one; otherwise the
least recently used entry makes room if the cache is full (component_loader.rs:98) -/
def put (cap : Nat) (es : Lru V) (k : Int) (v : V) : Lru V :=
  match es.lookup k with
  | some _ => (k, v) :: es.filter fun e => e.1 ≠ k
  | none => if es.length = cap then (k, v) :: es.dropLast else (k, v) :: es

end Lru

/-- component_loader.rs:19-22 `ComponentTuple` -/
structure ComponentTuple (M : Type) where
  hash : Nat
  model : M

/-- component_loader.rs:26-29 `ModelCache` -/
structure ModelCache (M : Type) where
  cap : Nat
  entries : Lru (ComponentTuple M)

namespace ModelCache
variable {M : Type}

/-- component_loader.rs:47-53 `new` -/
def new (size : Nat) : Res (ModelCache M) :=
  if size = 0 then .error (.panic "called `Option::unwrap()` on a `None` value") else .ok ⟨size, []⟩

/-- component_loader.rs:31-39 `default` -/
def default : ModelCache M := ⟨100, []⟩

/-- component_loader.rs:60-79 `get_model`; the model alone stands for the container made from it -/
def getModel (c : ModelCache M) (user : Int) (hash : Nat) : Option M × ModelCache M :=
  if hash = 0 then (none, c)
  else
    let r := c.entries.get user
    (match r.1 with
      | some e => if e.hash = hash then some e.model else none
      | none => none, { c with entries := r.2 })

/-- component_loader.rs:87-107 `insert_model` -/
def insertModel (c : ModelCache M) (user : Int) (hash : Nat) (m : M) : M × ModelCache M :=
  if hash = 0 then (m, c)
  else (m, { c with entries := c.entries.put c.cap user ⟨hash, m⟩ })

end ModelCache

/-- One access to the cache. (component_loader.rs:60-110) -/
inductive CacheOp (M : Type) where
  | get (user : Int) (hash : Nat)
  | insert (user : Int) (hash : Nat) (model : M)

namespace CacheOp
variable {M : Type}

/-- component_loader.rs:60-110 the user of an access -/
def user : CacheOp M → Int
  | get u _ | insert u _ _ => u

/-- component_loader.rs:60-110 the hash of an access -/
def hash : CacheOp M → Nat
  | get _ h | insert _ h _ => h

/-- The cache after the access. (component_loader.rs:60-110) -/
def run (c : ModelCache M) : CacheOp M → ModelCache M
  | get u h => (c.getModel u h).2
  | insert u h m => (c.insertModel u h m).2

end CacheOp

/-- The cache after a sequence of accesses. (component_loader.rs:60-110) -/
def ModelCache.runAll {M : Type} (c : ModelCache M) (ops : List (CacheOp M)) : ModelCache M :=
  ops.foldl CacheOp.run c

/-- ecdar_backend.rs:32, 43: the counter starts at 1 -/
def tokenStart : BitVec 32 := 1#32

/-- ecdar_backend.rs:78-85 `get_user_token`: the token, and the counter afterwards; `fetch_add` on an
`AtomicI32` wraps around -/
def getUserToken (num : BitVec 32) : Int × BitVec 32 := (num.toInt, num + 1#32)

/-- The tokens of `n` calls, in the order in which the atomic additions happen. (ecdar_backend.rs:82) -/
def tokens : Nat → BitVec 32 → List Int
  | 0, _ => []
  | n + 1, num => (getUserToken num).1 :: tokens n (getUserToken num).2

end Reveaal
