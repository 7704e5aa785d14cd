import Verif.Model.Server

/-!
# What answers of the server mean

An answer is made from a model: the one the request brings itself, or one that another request of the same
user brought under the same hash.
-/

namespace Reveaal
variable {C M Q R G D S : Type}

/-- The user, hash and components a request comes with. -/
def Request.brings : Request C D → Option (Int × Nat × List C)
  | .query _ u _ info _ => info.map fun p => (u, p.1, p.2)
  | .start info | .step info _ => info.bind fun i => i.info.map fun p => (i.user, p.1, p.2)

/-- The answer a query request gets if `m` is its model: an error status if there is not exactly one query
or the query cannot be created or something crashes, and the verdict otherwise. -/
inductive QueryAnswer (calls : Calls C M Q R G D S) (id : Int) (text : String) (settings : Option Bool)
    (m : M) : Response R G S → Prop
  | parseCrash {msg} (h : calls.parseQueries text = .error msg) :
      QueryAnswer calls id text settings m (.error (.internal (msg ++ ", please report this bug to the developers")))
  | notOne {qs} (h : calls.parseQueries text = .ok qs) (hq : qs.length ≠ 1) :
      QueryAnswer calls id text settings m (.error (.invalidArgument "This procedure takes in exactly 1 query"))
  | crash {q msg} (h : calls.parseQueries text = .ok [q])
      (hr : calls.runQuery q m (settings.getD true) = .error msg) :
      QueryAnswer calls id text settings m (.error (.internal (msg ++ ", please report this bug to the developers")))
  | notCreated {q e} (h : calls.parseQueries text = .ok [q])
      (hr : calls.runQuery q m (settings.getD true) = .ok (.custom e)) :
      QueryAnswer calls id text settings m (.error (.invalidArgument ("Creation of query failed: " ++ e)))
  | recipe {q f} (h : calls.parseQueries text = .ok [q])
      (hr : calls.runQuery q m (settings.getD true) = .ok (.recipe f)) :
      QueryAnswer calls id text settings m (.ok (.recipe id f))
  | verdict {q r} (h : calls.parseQueries text = .ok [q])
      (hr : calls.runQuery q m (settings.getD true) = .ok (.result r)) :
      QueryAnswer calls id text settings m (.ok (.result id r))

/-- Requests of the same user with the same hash bring the same components (hash 0 promises nothing). -/
def FaithfulHashes (reqs : List (Request C D)) : Prop :=
  ∀ r ∈ reqs, ∀ r' ∈ reqs, ∀ u h cs cs', r.brings = some (u, h, cs) → r'.brings = some (u, h, cs') →
    h ≠ 0 → cs = cs'

/-- The answer to a request that has a server with an empty cache for itself. -/
def answerAlone (calls : Calls C M Q R G D S) (req : Request C D) : Response R G S :=
  catchUnwind (handle calls ModelCache.default req).1

/-- The answer of a request when the requests `reqs` have arrived: the one it would get alone, or the one
made from a model that another request of the same user brought under the same hash.  `calls` are the calls of this
request, `others k` those of request `k`. -/
def AnsweredFrom (others : Nat → Calls C M Q R G D S) (calls : Calls C M Q R G D S) (reqs : List (Request C D))
    (req : Request C D) (r : Response R G S) : Prop :=
  r = answerAlone calls req ∨
  ∃ u h cs k req' cs' m, req.brings = some (u, h, cs) ∧ reqs[k]? = some req' ∧ req'.brings = some (u, h, cs') ∧ h ≠ 0 ∧
    (others k).parseComponents cs' = .ok m ∧ req.prepare calls = .ok (.ok (u, h, cs)) ∧
    r = catchUnwind (req.finish calls m)

end Reveaal
