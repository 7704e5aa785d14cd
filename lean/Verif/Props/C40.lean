import Verif.Spec.Server
import Verif.Lemmas.Cache

/-! # C40: the answers of the server -/

namespace Reveaal
variable {C M Q R G D S : Type} {calls : Calls C M Q R G D S}

theorem crash_bind_ok {α β : Type} {r : Crash α} {f : α → Crash β} {b : β} (h : (r >>= f) = .ok b) :
    ∃ a, r = .ok a ∧ f a = .ok b := by
  cases r with
  | error e => cases h
  | ok a => exact ⟨a, rfl, h⟩

theorem parseQuery_eq (text : String) : Request.parseQuery calls text =
    match calls.parseQueries text with
    | .error msg => .error msg
    | .ok [q] => .ok (.ok q)
    | .ok _ => .ok (.error (.invalidArgument "This procedure takes in exactly 1 query")) := by
  unfold Request.parseQuery
  cases calls.parseQueries text with
  | error msg => rfl
  | ok qs =>
    match qs with
    | [] => rfl
    | [q] => rfl
    | _ :: _ :: _ => rfl

theorem default_get (user : Int) (h : Nat) :
    (ModelCache.default : ModelCache M).getModel user h = (none, ModelCache.default) := by
  unfold ModelCache.getModel; split <;> rfl

theorem insert_model_fst (c : ModelCache M) (user : Int) (h : Nat) (m : M) :
    (c.insertModel user h m).1 = m := by
  unfold ModelCache.insertModel; split <;> rfl

/-- The answer of a request that has the server for itself. -/
theorem answerAlone_eq (req : Request C D) : answerAlone calls req =
    match req.prepare calls with
    | .error msg => catchUnwind (.error msg)
    | .ok (.error s) => .error s
    | .ok (.ok (_, _, cs)) =>
      match calls.parseComponents cs with
      | .error msg => catchUnwind (.error msg)
      | .ok m => catchUnwind (req.finish calls m) := by
  unfold answerAlone handle
  cases req.prepare calls with
  | error msg => rfl
  | ok x =>
    cases x with
    | error s => rfl
    | ok x =>
      obtain ⟨u, h, cs⟩ := x
      simp only [default_get]
      cases calls.parseComponents cs with
      | error msg => rfl
      | ok m => simp only [insert_model_fst]

/-- Alone on a server, a query request that brings components is answered from its own model, as
described; if the components cannot be parsed it gets an error status. -/
theorem C40_query (calls : Calls C M Q R G D S) (id user : Int) (text : String) (h : Nat) (cs : List C)
    (settings : Option Bool) :
    (∃ m, calls.parseComponents cs = .ok m ∧ QueryAnswer calls id text settings m
      (answerAlone calls (.query id user text (some (h, cs)) settings))) ∨
    (∃ msg, calls.parseComponents cs = .error msg ∧ ∃ s,
      answerAlone calls (.query id user text (some (h, cs)) settings) = .error s) := by
  rw [answerAlone_eq]
  have early : ∀ {x : Crash (Except Status Q)} {r : Response R G S}, Request.parseQuery calls text = x →
      (∀ m, QueryAnswer calls id text settings m r) → (∃ s, r = .error s) →
      (match Request.prepare calls (.query id user text (some (h, cs)) settings : Request C D) with
        | .error msg => catchUnwind (.error msg)
        | .ok (.error s) => .error s
        | .ok (.ok (_, _, cs)) =>
          match calls.parseComponents cs with
          | .error msg => catchUnwind (.error msg)
          | .ok m => catchUnwind (Request.finish calls m (.query id user text (some (h, cs)) settings))) = r →
      (∃ m, calls.parseComponents cs = .ok m ∧ QueryAnswer calls id text settings m r) ∨
      (∃ msg, calls.parseComponents cs = .error msg ∧ ∃ s, r = .error s) := by
    intro x r _ h1 h2 _
    cases hc : calls.parseComponents cs with
    | error m => exact .inr ⟨m, rfl, h2⟩
    | ok m => exact .inl ⟨m, rfl, h1 m⟩
  have hq := parseQuery_eq (calls := calls) text
  cases hp : calls.parseQueries text with
  | error msg =>
    rw [hp] at hq
    have hprep : Request.prepare calls (.query id user text (some (h, cs)) settings : Request C D) =
        .error msg := by
      show (Request.parseQuery calls text >>= _) = _
      rw [hq]; rfl
    rw [hprep]
    exact early hq (fun _ => .parseCrash hp) ⟨_, rfl⟩ (by rw [hprep])
  | ok qs =>
    rw [hp] at hq
    by_cases hlen : qs.length = 1
    · match qs, hlen with
      | [q], _ =>
      have hprep : Request.prepare calls (.query id user text (some (h, cs)) settings : Request C D) =
          .ok (.ok (user, h, cs)) := by
        show (Request.parseQuery calls text >>= _) = _
        rw [hq]; rfl
      rw [hprep]
      dsimp only
      cases hc : calls.parseComponents cs with
      | error m => exact .inr ⟨m, rfl, _, rfl⟩
      | ok m =>
        refine .inl ⟨m, rfl, ?_⟩
        have hfin : Request.finish calls m (.query id user text (some (h, cs)) settings : Request C D) =
            (calls.runQuery q m (settings.getD defaultSettings) >>= fun o => match o with
              | .custom e => .ok (.error (.invalidArgument ("Creation of query failed: " ++ e)))
              | .recipe f => .ok (.ok (.recipe id f))
              | .result r => .ok (.ok (.result id r))) := by
          show (Request.parseQuery calls text >>= _) = _
          rw [hq]; rfl
        dsimp only
        rw [hfin]
        cases hr : calls.runQuery q m (settings.getD defaultSettings) with
        | error msg => exact .crash hp hr
        | ok o =>
          cases o with
          | custom e => exact .notCreated hp hr
          | recipe f => exact .recipe hp hr
          | result r => exact .verdict hp hr
    · have hq' : Request.parseQuery calls text =
          .ok (.error (.invalidArgument "This procedure takes in exactly 1 query")) := by
        rw [hq]
        match qs, hlen with
        | [], _ => rfl
        | [q], h => exact (h rfl).elim
        | _ :: _ :: _, _ => rfl
      have hprep : Request.prepare calls (.query id user text (some (h, cs)) settings : Request C D) =
          .ok (.error (.invalidArgument "This procedure takes in exactly 1 query")) := by
        show (Request.parseQuery calls text >>= _) = _
        rw [hq']; rfl
      rw [hprep]
      exact early hq' (fun _ => .notOne hp hlen) ⟨_, rfl⟩ (by rw [hprep])

/-- Without components the answer is an error status. -/
theorem C40_no_components (calls : Calls C M Q R G D S) (req : Request C D) (h : req.brings = none) :
    ∃ s, answerAlone calls req = .error s := by
  have hp : req.prepare calls = .error unwrapMsg := by
    cases req with
    | query id u q info st =>
      cases info with
      | none => rfl
      | some p => cases h
    | start info =>
      cases info with
      | none => rfl
      | some i =>
        obtain ⟨u, c, o⟩ := i
        cases o with
        | none => rfl
        | some p => cases h
    | step info d =>
      cases info with
      | none => rfl
      | some i =>
        obtain ⟨u, c, o⟩ := i
        cases o with
        | none => rfl
        | some p => cases h
  rw [answerAlone_eq, hp]
  exact ⟨_, rfl⟩

theorem prepare_brings {req : Request C D} {x : Int × Nat × List C} (h : req.prepare calls = .ok (.ok x)) :
    req.brings = some x := by
  cases req with
  | query id u q info st =>
    cases info with
    | none => cases h
    | some p =>
      obtain ⟨k, cs⟩ := p
      obtain ⟨r, _, h⟩ := crash_bind_ok h
      cases r <;> cases h
      rfl
  | start info =>
    cases info with
    | none => cases h
    | some i =>
      obtain ⟨u, c, o⟩ := i
      cases o <;> cases h
      rfl
  | step info d =>
    cases info with
    | none => cases h
    | some i =>
      obtain ⟨u, c, o⟩ := i
      cases o <;> cases h
      rfl

/-! ## Many requests at once -/

section
variable {others : Nat → Calls C M Q R G D S}

/-- What holds of a request. -/
def JobOk (others : Nat → Calls C M Q R G D S) (calls : Calls C M Q R G D S) (reqs : List (Request C D))
    (j : Job C M R G D S) : Prop :=
  match j.phase with
  | .arrived => True
  | .prepared u h cs | .missed u h cs => j.req.prepare calls = .ok (.ok (u, h, cs))
  | .parsed u h m => ∃ cs, j.req.prepare calls = .ok (.ok (u, h, cs)) ∧ calls.parseComponents cs = .ok m
  | .answered r => AnsweredFrom others calls reqs j.req r

/-- What holds of the cache. -/
def CacheOk (others : Nat → Calls C M Q R G D S) (reqs : List (Request C D)) (c : ModelCache M) : Prop :=
  c.Inv ∧ ∀ u h m, (u, ⟨h, m⟩) ∈ c.entries → ∃ k req, reqs[k]? = some req ∧ ∃ cs, req.brings = some (u, h, cs) ∧
    (others k).parseComponents cs = .ok m

theorem JobOk.mono {reqs reqs' : List (Request C D)} (hs : ∀ (k : Nat) r, reqs[k]? = some r → reqs'[k]? = some r) {j : Job C M R G D S}
    (h : JobOk others calls reqs j) : JobOk others calls reqs' j := by
  obtain ⟨req, ph⟩ := j
  cases ph with
  | answered r =>
    rcases h with h | ⟨u, k, cs, i, req', cs', m, h1, h2, h3⟩
    · exact .inl h
    · exact .inr ⟨u, k, cs, i, req', cs', m, h1, hs _ _ h2, h3⟩
  | _ => exact h

theorem step_ok {i : Nat} {reqs : List (Request C D)} {c : ModelCache M} {j : Job C M R G D S}
    (hj : JobOk others (others i) reqs j) (hc : CacheOk others reqs c) (hin : reqs[i]? = some j.req) :
    JobOk others (others i) reqs (j.step (others i) c).1 ∧ CacheOk others reqs (j.step (others i) c).2 ∧
      (j.step (others i) c).1.req = j.req := by
  obtain ⟨req, ph⟩ := j
  cases ph with
  | arrived =>
    unfold Job.step
    dsimp only
    cases hp : req.prepare (others i) with
    | error msg =>
      refine ⟨.inl ?_, hc, rfl⟩
      rw [answerAlone_eq]; dsimp only; rw [hp]
    | ok x =>
      cases x with
      | error s =>
        refine ⟨.inl ?_, hc, rfl⟩
        rw [answerAlone_eq]; dsimp only; rw [hp]; rfl
      | ok x => exact ⟨hp, hc, rfl⟩
  | prepared u h cs =>
    have hp : req.prepare (others i) = .ok (.ok (u, h, cs)) := hj
    have hc2 : CacheOk others reqs (c.getModel u h).2 := by
      refine ⟨(hc.1.step (.get u h)).1, fun u' h' m hm => hc.2 u' h' m ?_⟩
      unfold ModelCache.getModel at hm
      split at hm
      · exact hm
      · exact (Lru.mem_get hc.1.ok).1 hm
    have hhit := fun m => ModelCache.getModel_some (c := c) hc.1 (u := u) (k := h) (m := m)
    unfold Job.step
    dsimp only
    cases hg : c.getModel u h with
    | mk o c' =>
      rw [hg] at hc2 hhit
      cases o with
      | none => exact ⟨hp, hc2, rfl⟩
      | some m =>
        obtain ⟨h0, hm⟩ := (hhit m).1 rfl
        obtain ⟨k, req', hr', cs', hb, hpc⟩ := hc.2 u h m hm
        exact ⟨.inr ⟨u, h, cs, k, req', cs', m, prepare_brings hp, hr', hb, h0, hpc, hp, rfl⟩, hc2, rfl⟩
  | missed u h cs =>
    have hp : req.prepare (others i) = .ok (.ok (u, h, cs)) := hj
    unfold Job.step
    dsimp only
    cases hpc : (others i).parseComponents cs with
    | error msg =>
      refine ⟨.inl ?_, hc, rfl⟩
      rw [answerAlone_eq]; dsimp only; rw [hp]; dsimp only; rw [hpc]
    | ok m => exact ⟨⟨cs, hp, hpc⟩, hc, rfl⟩
  | parsed u h m =>
    obtain ⟨cs, hp, hpc⟩ := hj
    unfold Job.step
    dsimp only
    refine ⟨.inl ?_, ⟨(hc.1.step (.insert u h m)).1, fun u' h' m' hm => ?_⟩, rfl⟩
    · rw [answerAlone_eq]; dsimp only at hp ⊢; rw [hp]; dsimp only; rw [hpc, insert_model_fst]
    · unfold ModelCache.insertModel at hm
      split at hm
      · exact hc.2 u' h' m' hm
      · rcases Lru.mem_put hm with h1 | ⟨h1, _⟩
        · cases h1; exact ⟨i, req, hin, cs, prepare_brings hp, hpc⟩
        · exact hc.2 u' h' m' h1
  | answered r => exact ⟨hj, hc, rfl⟩

theorem server_ok (size : Nat) (cache : ModelCache M) (hcache : ModelCache.new size = .ok cache)
    (es : List (ServerEvent C D)) :
    let s := Server.after (R := R) (G := G) (S := S) others cache es
    CacheOk others (s.jobs.map (·.req)) s.cache ∧
      ∀ i j, s.jobs[i]? = some j → JobOk others (others i) (s.jobs.map (·.req)) j := by
  unfold Server.after
  have h0 : CacheOk others (([] : List (Job C M R G D S)).map (·.req)) cache ∧
      ∀ (i : Nat) (j : Job C M R G D S), [][i]? = some j →
        JobOk others (others i) (([] : List (Job C M R G D S)).map (·.req)) j := by
    obtain ⟨h1, _, h2⟩ := ModelCache.new_inv hcache
    refine ⟨⟨h1, fun u h m hm => ?_⟩, by simp⟩
    rw [h2] at hm; cases hm
  revert h0
  generalize ([] : List (Job C M R G D S)) = jobs
  clear hcache
  intro h0
  induction es generalizing cache jobs with
  | nil => exact h0
  | cons e es ih =>
    rw [List.foldl_cons]
    obtain ⟨hc, hj⟩ := h0
    cases e with
    | arrive req =>
      have hpre : ∀ (k : Nat) (r : Request C D), (jobs.map (·.req))[k]? = some r →
          ((jobs ++ [(⟨req, .arrived⟩ : Job C M R G D S)]).map (·.req))[k]? = some r := by
        intro k r hr
        rw [List.map_append, List.getElem?_append_left (List.getElem?_eq_some_iff.1 hr).1]
        exact hr
      refine ih cache (jobs ++ [⟨req, .arrived⟩]) ⟨⟨hc.1, fun u h m hm => ?_⟩, fun i j hjm => ?_⟩
      · obtain ⟨k, r, hr, x⟩ := hc.2 u h m hm
        exact ⟨k, r, hpre k r hr, x⟩
      · rw [List.getElem?_append] at hjm
        split at hjm
        · exact (hj i j hjm).mono hpre
        · rename_i hlt
          obtain ⟨h1, h2⟩ := List.getElem?_eq_some_iff.1 hjm
          have h3 : j = ⟨req, .arrived⟩ := by
            rw [← h2]
            simp at h1
            simp
          subst h3
          trivial
    | run i =>
      simp only [Server.event]
      cases hi : jobs[i]? with
      | none => exact ih cache jobs ⟨hc, hj⟩
      | some j =>
        obtain ⟨h1, h2, h3⟩ := step_ok (hj i j hi) hc (by rw [List.getElem?_map, hi]; rfl)
        have hmap : (jobs.set i (j.step (others i) cache).1).map (·.req) = jobs.map (·.req) := by
          rw [List.map_set, h3]
          apply List.ext_getElem?
          intro k
          rw [List.getElem?_set]
          split
          · rename_i hik; subst hik
            obtain ⟨hlt, hv⟩ := List.getElem?_eq_some_iff.1 hi
            simp [hlt, hv]
          · rfl
        refine ih _ _ ⟨by rw [hmap]; exact h2, fun i' j' hj' => ?_⟩
        rw [hmap]
        rw [List.getElem?_set] at hj'
        split at hj'
        · rename_i hik
          subst hik
          split at hj'
          · cases hj'; exact h1
          · cases hj'
        · exact hj i' j' hj'

end

/-- Whatever requests arrive and in whatever order their steps happen (crashes of other requests included),
a request is only ever answered as if it were alone, or from a model that a request of the same user brought
under the same hash. -/
theorem C40_answers (calls : Nat → Calls C M Q R G D S) (size : Nat) (cache : ModelCache M)
    (hcache : ModelCache.new size = .ok cache) (es : List (ServerEvent C D)) (i : Nat)
    (j : Job C M R G D S) (hj : (Server.after calls cache es).jobs[i]? = some j) (r : Response R G S)
    (hr : j.phase = .answered r) :
    AnsweredFrom calls (calls i) ((Server.after (R := R) (G := G) (S := S) calls cache es).jobs.map (·.req)) j.req r := by
  have := (server_ok (others := calls) (R := R) (G := G) (S := S) size cache hcache es).2 i j hj
  unfold JobOk at this
  rw [hr] at this
  exact this

/-- If the hashes are faithful, and reading components gives the same result each time, every request is answered as if it
were alone: requests do not disturb each other, whether they succeed, fail or crash. -/
theorem C40_isolated (calls : Nat → Calls C M Q R G D S) (hread : ∀ i k, (calls i).parseComponents = (calls k).parseComponents)
    (size : Nat) (cache : ModelCache M)
    (hcache : ModelCache.new size = .ok cache) (es : List (ServerEvent C D))
    (hf : FaithfulHashes ((Server.after (R := R) (G := G) (S := S) calls cache es).jobs.map (·.req))) (i : Nat)
    (j : Job C M R G D S) (hj : (Server.after calls cache es).jobs[i]? = some j) (r : Response R G S)
    (hr : j.phase = .answered r) : r = answerAlone (calls i) j.req := by
  rcases C40_answers calls size cache hcache es i j hj r hr with h | ⟨u, k, cs, n, req', cs', m, h1, h2, h3, h4, h5,
    h6, rfl⟩
  · exact h
  · have hcs := hf j.req (List.mem_map.2 ⟨j, List.mem_of_getElem? hj, rfl⟩) req' (List.mem_of_getElem? h2) u k cs cs' h1 h3 h4
    subst hcs
    rw [answerAlone_eq, h6]; dsimp only; rw [hread i n, h5]

/-- Steps a request still needs. -/
def Phase.left : Phase C M R G S → Nat
  | .arrived => 4
  | .prepared .. => 3
  | .missed .. => 2
  | .parsed .. => 1
  | .answered _ => 0

theorem step_left (c : ModelCache M) (j : Job C M R G D S) :
    (j.step calls c).1.phase.left ≤ j.phase.left - 1 := by
  obtain ⟨req, ph⟩ := j
  cases ph with
  | arrived =>
    unfold Job.step; dsimp only
    cases req.prepare calls with
    | error msg => simp [Phase.left]
    | ok x => cases x <;> simp [Phase.left]
  | prepared u h cs =>
    unfold Job.step; dsimp only
    cases c.getModel u h with
    | mk o c' => cases o <;> simp [Phase.left]
  | missed u h cs =>
    unfold Job.step; dsimp only
    cases calls.parseComponents cs <;> simp [Phase.left]
  | parsed u h m => simp [Job.step, Phase.left]
  | answered r => simp [Job.step, Phase.left]

/-- Every request is answered: four steps of its own are enough, whatever other requests do in between. -/
theorem C40_total (calls : Nat → Calls C M Q R G D S) (s : Server C M R G D S) (es : List (ServerEvent C D)) (i : Nat)
    (hi : i < s.jobs.length) (h4 : 4 ≤ (es.filter fun e => match e with | .run k => k == i | _ => false).length) :
    ∃ j r, (es.foldl (Server.event calls) s).jobs[i]? = some j ∧ j.phase = .answered r := by
  have key : ∀ (es : List (ServerEvent C D)) (s : Server C M R G D S) (j : Job C M R G D S),
      s.jobs[i]? = some j → ∃ j', (es.foldl (Server.event calls) s).jobs[i]? = some j' ∧
        j'.phase.left ≤ j.phase.left -
          (es.filter fun e => match e with | .run k => k == i | _ => false).length := by
    intro es
    induction es with
    | nil => intro s j hj; exact ⟨j, hj, by simp⟩
    | cons e es ih =>
      intro s j hj
      rw [List.foldl_cons]
      obtain ⟨hlt, hv⟩ := List.getElem?_eq_some_iff.1 hj
      cases e with
      | arrive req =>
        obtain ⟨j', h1, h2⟩ := ih (s.event calls (.arrive req)) j (by
          simp only [Server.event]; rw [List.getElem?_append_left hlt]; exact hj)
        exact ⟨j', h1, by simpa using h2⟩
      | run k =>
        by_cases hk : k = i
        · subst hk
          have hs : (s.event calls (.run k)).jobs[k]? = some (j.step (calls k) s.cache).1 := by
            simp only [Server.event, hj]
            rw [List.getElem?_set_self hlt]
          obtain ⟨j', h1, h2⟩ := ih _ _ hs
          refine ⟨j', h1, h2.trans ?_⟩
          have := step_left (calls := calls k) s.cache j
          simp only [List.filter_cons, beq_self_eq_true, if_true, List.length_cons]
          omega
        · have hs : (s.event calls (.run k)).jobs[i]? = some j := by
            simp only [Server.event]
            split
            · exact hj
            · rw [List.getElem?_set_ne hk]; exact hj
          obtain ⟨j', h1, h2⟩ := ih _ _ hs
          refine ⟨j', h1, ?_⟩
          have : (k == i) = false := by simpa using hk
          simpa [List.filter_cons, this] using h2
  obtain ⟨j', h1, h2⟩ := key es s _ (List.getElem?_eq_getElem hi)
  have hle : ∀ p : Phase C M R G S, p.left ≤ 4 := by intro p; cases p <;> simp [Phase.left]
  have := hle (s.jobs[i]).phase
  have hz : j'.phase.left = 0 := by omega
  refine ⟨j', ?_⟩
  cases hp : j'.phase with
  | answered r => exact ⟨r, h1, rfl⟩
  | _ => rw [hp] at hz; simp [Phase.left] at hz

/-! ## A server with two users

The model is the number of components; the query `crash` panics; a query answers with the model. -/

def exCalls : Calls Nat (List Nat) String (List Nat) String Unit String where
  parseQueries t := if t = "two" then .ok ["q", "q"] else .ok [t]
  parseComponents cs := if cs = [13] then .error "bad component" else .ok cs
  runQuery q m _ := if q = "crash" then .error "boom" else if q = "missing" then .ok (.custom "no component")
    else .ok (.result m)
  startSimulation s m := if m = [] then .error "nothing" else .ok s
  stepSimulation s _ _ := .ok s

def exReq (id user : Int) (q : String) (h : Nat) (cs : List Nat) : Request Nat Unit :=
  .query id user q (some (h, cs)) none

/-- Requests of two users, interleaved; one crashes in the query, one in the components. -/
def exEvents : List (ServerEvent Nat Unit) :=
  [.arrive (exReq 1 1 "q" 7 [1, 2]), .arrive (exReq 2 2 "crash" 7 [3]), .arrive (exReq 3 1 "q" 7 [1, 2]),
   .arrive (exReq 4 2 "q" 9 [13]),
   .run 0, .run 1, .run 2, .run 0, .run 1, .run 2, .run 1, .run 0, .run 0, .run 1, .run 2, .run 2, .run 3,
   .run 3, .run 3]

example : ∃ cache : ModelCache (List Nat), ModelCache.new 2 = .ok cache ∧
    ((Server.after (fun _ => exCalls) cache exEvents).jobs.map fun j => match j.phase with
      | .answered (.ok (.result id r)) => some (some (id, r))
      | .answered _ => some none
      | _ => none) = [some (some (1, [1, 2])), some none, some (some (3, [1, 2])), some none] :=
  ⟨_, rfl, rfl⟩

/-- The hashes in the example are faithful. -/
example (cache : ModelCache (List Nat)) : FaithfulHashes
    ((Server.after (R := List Nat) (G := String) (S := String) (fun _ => exCalls) cache exEvents).jobs.map (·.req)) := by
  have : (Server.after (R := List Nat) (G := String) (S := String) (fun _ => exCalls) cache exEvents).jobs.map (·.req) =
      [exReq 1 1 "q" 7 [1, 2], exReq 2 2 "crash" 7 [3], exReq 3 1 "q" 7 [1, 2], exReq 4 2 "q" 9 [13]] := by
    have hreq : ∀ (j : Job Nat (List Nat) (List Nat) String Unit String) c, (j.step exCalls c).1.req = j.req := by
      intro j c
      obtain ⟨req, ph⟩ := j
      unfold Job.step
      cases ph <;> dsimp only <;> (repeat' split) <;> rfl
    simp [Server.after, exEvents, Server.event, hreq]
  rw [this]
  intro r hr r' hr' u h cs cs' hb hb' _
  simp only [List.mem_cons, List.not_mem_nil, or_false] at hr hr'
  rcases hr with rfl | rfl | rfl | rfl <;> cases hb <;> rcases hr' with rfl | rfl | rfl | rfl <;> cases hb' <;> rfl

/-- The hypothesis on hashes is needed: a user who sends other components under a hash used before gets the
answer for the old components. -/
theorem C40_hash_needed : ∃ cache : ModelCache (List Nat), ModelCache.new 2 = .ok cache ∧
    ∃ (es : List (ServerEvent Nat Unit)) (j : Job Nat (List Nat) (List Nat) String Unit String)
      (r : Response (List Nat) String String),
      (Server.after (fun _ => exCalls) cache es).jobs[1]? = some j ∧ j.phase = .answered r ∧
      r = .ok (.result 2 [1]) ∧ answerAlone exCalls j.req = .ok (.result 2 [5]) :=
  ⟨_, rfl, [.arrive (exReq 1 1 "q" 7 [1]), .run 0, .run 0, .run 0, .run 0, .arrive (exReq 2 1 "q" 7 [5]), .run 1,
    .run 1], ⟨exReq 2 1 "q" 7 [5], .answered (.ok (.result 2 [1]))⟩, _, rfl, rfl, rfl, rfl⟩

end Reveaal
