import Verif.Model.Cache

/-!
# The request handlers of the server

Models `handle_send_query`, `parse_query` (`src/ProtobufServer/ecdar_requests/send_query.rs`),
`handle_start_simulation`, `handle_take_simulation_step` (`simulation_requests.rs`), `get_or_insert_model`,
`simulation_info_to_transition_system` (`request_util.rs`) and `catch_unwind` (`ecdar_backend.rs`).

What the handlers call is a parameter (`Calls`): parsing queries and components, building and executing a
query, computing decisions.  Each of these may panic, which is `Except.error` with the panic message.
The calls of different requests need not agree, since the iteration order of a hash map may be different each time
(`Nat → Calls`: the calls of each request).  Requests run concurrently and share the cache; a request accesses the cache in two separate locked steps
(look up, store), and other requests may run in between.
-/

namespace Reveaal

/-- What a call yields, or the message of its panic. (ecdar_backend.rs:50-75 `catch_unwind`) -/
abbrev Crash (α : Type) := Except String α

/-- `tonic::Status` as used by the handlers (send_query.rs:60, 80; ecdar_backend.rs:66) -/
inductive Status where
  | internal (msg : String)
  | invalidArgument (msg : String)
deriving DecidableEq, Repr

/-- What `create_executable_query` and the execution of the query yield (send_query.rs:50-72) -/
inductive Outcome (R G : Type) where
  /-- `ExecutableQueryError::Custom` -/
  | custom (msg : String)
  /-- `ExecutableQueryError::SystemRecipeFailure` -/
  | recipe (failure : G)
  /-- the query was executed -/
  | result (r : R)

/-- The calls the handlers make.  `C`: components in protobuf form, `M`: loaded models, `Q`: queries, `R`:
query results, `G`: recipe failures, `D`: decisions, `S`: simulation responses.
(calls made in send_query.rs:32-75, simulation_requests.rs:17-71, request_util.rs:15-67) -/
structure Calls (C M Q R G D S : Type) where
  /-- `parse_queries::parse_to_query` -/
  parseQueries : String → Crash (List Q)
  /-- request_util.rs:24-29, parsing and input-enabling the components -/
  parseComponents : List C → Crash M
  /-- send_query.rs:50-57, creating the query on the model with the settings, and executing it -/
  runQuery : Q → M → Bool → Crash (Outcome R G)
  /-- simulation_requests.rs:24-37 with the system built from the composition -/
  startSimulation : String → M → Crash S
  /-- simulation_requests.rs:52-68 -/
  stepSimulation : String → M → D → Crash S

/-- The fields of `SimulationInfo` (request_util.rs:55-67) -/
structure SimulationInfo (C : Type) where
  user : Int
  composition : String
  info : Option (Nat × List C)

/-- The three requests that use models (ecdar_backend.rs:87-143) -/
inductive Request (C D : Type) where
  | query (queryId user : Int) (query : String) (info : Option (Nat × List C)) (settings : Option Bool)
  | start (info : Option (SimulationInfo C))
  | step (info : Option (SimulationInfo C)) (decision : Option D)

/-- The answers; for a query the id of the request is repeated
(send_query.rs:66-72, simulation_requests.rs:36-41, 66-70) -/
inductive Answer (R G S : Type) where
  | result (queryId : Int) (r : R)
  | recipe (queryId : Int) (failure : G)
  | simulation (s : S)

/-- ecdar_backend.rs:50 the result of a handler -/
abbrev Response (R G S : Type) := Except Status (Answer R G S)

variable {C M Q R G D S : Type}

/-- ecdar_backend.rs:50-72 `catch_unwind` -/
def catchUnwind {α : Type} : Crash (Except Status α) → Except Status α
  | .ok r => r
  | .error msg => .error (.internal (msg ++ ", please report this bug to the developers"))

/-- the message of `Option::unwrap` (request_util.rs:60) -/
def unwrapMsg : String := "called `Option::unwrap()` on a `None` value"

/-- lib.rs:21-23 `DEFAULT_SETTINGS`: clock reduction is disabled -/
def defaultSettings : Bool := true

namespace Request

/-- send_query.rs:75-85 `parse_query` -/
def parseQuery (calls : Calls C M Q R G D S) (q : String) : Crash (Except Status Q) := do
  match ← calls.parseQueries q with
  | [q] => .ok (.ok q)
  | _ => .ok (.error (.invalidArgument "This procedure takes in exactly 1 query"))

/-- What happens before the model is needed: send_query.rs:37-40, simulation_requests.rs:21, 47 and
request_util.rs:60-62.  Yields the user, the hash and the components. -/
def prepare (calls : Calls C M Q R G D S) : Request C D → Crash (Except Status (Int × Nat × List C))
  | query _ user q info _ =>
    match info with
    | none => .error unwrapMsg
    | some (h, cs) => do
      match ← parseQuery calls q with
      | .error s => .ok (.error s)
      | .ok _ => .ok (.ok (user, h, cs))
  | start info | step info _ =>
    match info with
    | none => .error unwrapMsg
    | some ⟨user, _, some (h, cs)⟩ => .ok (.ok (user, h, cs))
    | some ⟨_, _, none⟩ => .error unwrapMsg

/-- What happens once the model is there: send_query.rs:48-72, simulation_requests.rs:23-37, 49-68. -/
def finish (calls : Calls C M Q R G D S) (m : M) : Request C D → Crash (Response R G S)
  | query id _ q _ settings => do
    match ← parseQuery calls q with
    | .error s => .ok (.error s)
    | .ok q =>
      match ← calls.runQuery q m (settings.getD defaultSettings) with
      | .custom e => .ok (.error (.invalidArgument ("Creation of query failed: " ++ e)))
      | .recipe f => .ok (.ok (.recipe id f))
      | .result r => .ok (.ok (.result id r))
  | start info => do
    match info with
    | none => .error unwrapMsg
    | some i => .ok (.ok (.simulation (← calls.startSimulation i.composition m)))
  | step info decision => do
    match info, decision with
    | some i, some d => .ok (.ok (.simulation (← calls.stepSimulation i.composition m d)))
    | _, _ => .error unwrapMsg

end Request

/-- The handler of a request that has the server for itself: request_util.rs:15-33 `get_or_insert_model`
between the two parts. -/
def handle (calls : Calls C M Q R G D S) (cache : ModelCache M) (req : Request C D) :
    Crash (Response R G S) × ModelCache M :=
  match req.prepare calls with
  | .error msg => (.error msg, cache)
  | .ok (.error s) => (.ok (.error s), cache)
  | .ok (.ok (user, h, cs)) =>
    match cache.getModel user h with
    | (some m, cache) => (req.finish calls m, cache)
    | (none, cache) =>
      match calls.parseComponents cs with
      | .error msg => (.error msg, cache)
      | .ok m =>
        let r := cache.insertModel user h m
        (req.finish calls r.1, r.2)

/-- How far a request has come.
(ecdar_backend.rs:87-143; the cache is locked at component_loader.rs:67, 98 only) -/
inductive Phase (C M R G S : Type) where
  | arrived
  /-- before the lookup in the cache -/
  | prepared (user : Int) (hash : Nat) (comps : List C)
  /-- the lookup found nothing -/
  | missed (user : Int) (hash : Nat) (comps : List C)
  /-- the components have been parsed, the model has not been stored yet -/
  | parsed (user : Int) (hash : Nat) (model : M)
  | answered (r : Response R G S)

/-- ecdar_backend.rs:87-143 one call of a handler -/
structure Job (C M R G D S : Type) where
  req : Request C D
  phase : Phase C M R G S

/-- One step of a request; a crash at any point ends it with an error status.
(ecdar_backend.rs:87-143 with request_util.rs:15-34) -/
def Job.step (calls : Calls C M Q R G D S) (cache : ModelCache M) (j : Job C M R G D S) :
    Job C M R G D S × ModelCache M :=
  let crash := fun msg : String => (({ j with phase := .answered (catchUnwind (.error msg)) } : Job C M R G D S), cache)
  match j.phase with
  | .arrived =>
    match j.req.prepare calls with
    | .error msg => crash msg
    | .ok (.error s) => ({ j with phase := .answered (catchUnwind (.ok (.error s))) }, cache)
    | .ok (.ok (user, h, cs)) => ({ j with phase := .prepared user h cs }, cache)
  | .prepared user h cs =>
    match cache.getModel user h with
    | (some m, cache) => ({ j with phase := .answered (catchUnwind (j.req.finish calls m)) }, cache)
    | (none, cache) => ({ j with phase := .missed user h cs }, cache)
  | .missed user h cs =>
    match calls.parseComponents cs with
    | .error msg => crash msg
    | .ok m => ({ j with phase := .parsed user h m }, cache)
  | .parsed user h m =>
    let r := cache.insertModel user h m
    ({ j with phase := .answered (catchUnwind (j.req.finish calls r.1)) }, r.2)
  | .answered _ => (j, cache)

/-- The server: its cache and all requests it has received. (ecdar_backend.rs:16-47) -/
structure Server (C M R G D S : Type) where
  cache : ModelCache M
  jobs : List (Job C M R G D S)

/-- What can happen next: a request arrives, or one of the requests makes a step. (ecdar_backend.rs:87-143) -/
inductive ServerEvent (C D : Type) where
  | arrive (req : Request C D)
  | run (job : Nat)

/-- ecdar_backend.rs:87-143 -/
def Server.event (calls : Nat → Calls C M Q R G D S) (s : Server C M R G D S) :
    ServerEvent C D → Server C M R G D S
  | .arrive req => { s with jobs := s.jobs ++ [⟨req, .arrived⟩] }
  | .run i =>
    match s.jobs[i]? with
    | none => s
    | some j =>
      let r := j.step (calls i) s.cache
      ⟨r.2, s.jobs.set i r.1⟩

/-- The server after a sequence of events, starting with an empty cache. (ecdar_backend.rs:87-143) -/
def Server.after (calls : Nat → Calls C M Q R G D S) (cache : ModelCache M) (es : List (ServerEvent C D)) :
    Server C M R G D S :=
  es.foldl (Server.event calls) ⟨cache, []⟩

end Reveaal
