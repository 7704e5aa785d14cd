import Verif.Spec.Serve
import Verif.Props.C40
import Verif.Props.C57
import Verif.Props.C67

/-!
# C68: the server answers about the components it is sent

*Whatever else the server is doing, a query is answered as it should be for the components that came with it, and a simulation
goes through the decisions of the system it was started with.*
-/

namespace Reveaal
open ZoneLib
variable {Z : Nat → Type} [∀ d, ZoneLib (Z d)]

/-! ## The components of a request -/

theorem describes_read {p : ProtoComponent} {cs : List Component} (h : p.Describes cs) : p.components = .ok cs := by
  cases h with
  | json h => show (_ >>= _) = _; rw [h]; rfl
  | xml h => show orPanic _ = _; rw [h]; rfl
  | empty => rfl

theorem sends_read {ps : List ProtoComponent} {cs : List Component} (h : Sends ps cs) : requestComponents ps = .ok cs := by
  obtain ⟨css, h, rfl⟩ := h
  induction h with
  | nil => rfl
  | cons h _ ih =>
    unfold requestComponents
    rw [describes_read h, ih]
    rfl

theorem inRequest_snoc {cs : List Component} {c0 : Component} {name : String} {c : Component} :
    InRequest Z (cs ++ [c0]) name c ↔
      (c0.name = name ∧ makeInputEnabled (Z c0.decls.clocks.length) c0 (c0.specificActions .input) = .ok c) ∨
      (c0.name ≠ name ∧ InRequest Z cs name c) := by
  constructor
  · rintro ⟨pre, c1, post, h1, h2, h3, h4⟩
    rcases List.eq_nil_or_concat post with rfl | ⟨post, c2, rfl⟩
    · obtain ⟨_, h5⟩ := List.append_inj' h1 rfl
      cases h5
      exact .inl ⟨h2, h4⟩
    · rw [List.concat_eq_append, ← List.cons_append, ← List.append_assoc] at h1
      obtain ⟨h5, h6⟩ := List.append_inj' h1 rfl
      cases h6
      exact .inr ⟨h3 _ (by simp), pre, c1, post, h5, h2, fun x hx => h3 x (by simp [hx]), h4⟩
  · rintro (⟨h1, h2⟩ | ⟨h1, pre, c1, post, rfl, h2, h3, h4⟩)
    · exact ⟨cs, c0, [], rfl, h1, by simp, h2⟩
    · refine ⟨pre, c1, post ++ [c0], by simp, h2, fun x hx => ?_, h4⟩
      rcases List.mem_append.1 hx with hx | hx
      · exact h3 x hx
      · rw [List.mem_singleton.1 hx]; exact h1

theorem container_form (cs : List Component) :
    ((∃ m, containerOf Z cs = .ok m) ↔ Enableable Z cs) ∧
    ∀ m, containerOf Z cs = .ok m → ∀ name c, namedEntry m name = .ok c ↔ InRequest Z cs name c := by
  have hn : ∀ (m : List (String × Component)) name c, namedEntry m name = .ok c ↔ m.lookup name = some c ∧ name = c.name := by
    intro m name c
    unfold namedEntry
    cases m.lookup name with
    | none => simp
    | some c' =>
      dsimp only
      constructor
      · intro h
        split at h
        · cases h; exact ⟨rfl, by assumption⟩
        · cases h
      · rintro ⟨h, h'⟩
        cases h
        rw [if_pos h']
  suffices h : ((∃ m, containerOf Z cs = .ok m) ↔ Enableable Z cs) ∧
      ∀ m, containerOf Z cs = .ok m → ∀ name c, m.lookup name = some c ↔ InRequest Z cs name c by
    refine ⟨h.1, fun m hm name c => ?_⟩
    rw [hn, h.2 m hm]
    refine ⟨fun h => h.1, fun h => ⟨h, ?_⟩⟩
    obtain ⟨_, c0, _, _, h1, _, h2⟩ := h
    rw [enabled_name h2, h1]
  induction cs using List.reverseRecOn with
  | nil =>
    refine ⟨⟨fun _ _ h => (by cases h), fun _ => ⟨_, rfl⟩⟩, fun m hm name c => ?_⟩
    cases hm
    refine ⟨fun h => (by cases h), fun ⟨pre, c0, post, h, _⟩ => ?_⟩
    cases pre <;> cases h
  | append_singleton cs c0 ih =>
    have hfold : containerOf Z (cs ++ [c0]) = containerOf Z cs >>= fun m =>
        makeInputEnabled (Z c0.decls.clocks.length) c0 (c0.specificActions .input) >>= fun c => .ok (hmInsert c.name c m) := by
      unfold containerOf
      rw [List.foldlM_append]
      congr 1
      funext m
      rw [List.foldlM_cons]
      cases makeInputEnabled (Z c0.decls.clocks.length) c0 (c0.specificActions .input) <;> rfl
    rw [hfold]
    constructor
    · constructor
      · rintro ⟨m, hm⟩ c hc
        obtain ⟨m1, h1, hm⟩ := bind_ok hm
        obtain ⟨c1, h2, hm⟩ := bind_ok hm
        rcases List.mem_append.1 hc with hc | hc
        · exact ih.1.1 ⟨m1, h1⟩ c hc
        · rw [List.mem_singleton.1 hc]; exact ⟨c1, h2⟩
      · intro h
        obtain ⟨m, hm⟩ := ih.1.2 fun c hc => h c (List.mem_append_left _ hc)
        obtain ⟨c, hc⟩ := h c0 (by simp)
        exact ⟨_, by rw [hm, ok_bind, hc, ok_bind]⟩
    · intro m hm name c
      obtain ⟨m1, h1, hm⟩ := bind_ok hm
      obtain ⟨c1, h2, hm⟩ := bind_ok hm
      cases hm
      rw [lookup_hmInsert, inRequest_snoc, enabled_name h2]
      by_cases h3 : c0.name = name
      · rw [if_pos h3.symm, h2]
        constructor
        · intro h; cases h; exact .inl ⟨h3, rfl⟩
        · rintro (⟨_, h⟩ | ⟨h, _⟩)
          · cases h; rfl
          · exact absurd h3 h
      · rw [if_neg fun h => h3 h.symm, ih.2 m1 h1]
        exact ⟨fun h => .inr ⟨h3, h⟩, fun h => h.elim (fun h => absurd h.1 h3) (fun h => h.2)⟩

theorem crashing_ok {α : Type} {x : Res α} {a : α} : crashing x = .ok a ↔ x = .ok a := by
  unfold crashing
  split <;> simp

/-- The model of a request: there is one exactly if all its components can be input-enabled. -/
theorem request_model {ps : List ProtoComponent} {cs : List Component} (h : requestComponents ps = .ok cs) :
    ((∃ m, requestModel Z ps = .ok m) ↔ Enableable Z cs) ∧
    ∀ m, requestModel Z ps = .ok m → ∀ name c, namedEntry m name = .ok c ↔ InRequest Z cs name c := by
  unfold requestModel
  rw [h, ok_bind]
  exact container_form cs

/-! ## Only the components count -/

theorem recipe_mono {v v' : String → Res Component} (hv : ∀ n c, v n = .ok c → v' n = .ok c) : ∀ (e : SysExpr) (d : Nat) (q : Option Nat)
    (x : Recipe × Nat × Option Nat), getSystemRecipe v e d q = .ok x → getSystemRecipe v' e d q = .ok x
  | .composition l r, d, q, x, h => by
    unfold getSystemRecipe at h ⊢
    obtain ⟨⟨y1, y2, y3⟩, h1, h⟩ := bind_ok h
    rw [recipe_mono hv l _ _ _ h1, ok_bind]
    dsimp only at h ⊢
    obtain ⟨z, h2, h⟩ := bind_ok h
    rw [recipe_mono hv r _ _ _ h2, ok_bind]
    exact h
  | .conjunction l r, d, q, x, h => by
    unfold getSystemRecipe at h ⊢
    obtain ⟨⟨y1, y2, y3⟩, h1, h⟩ := bind_ok h
    rw [recipe_mono hv l _ _ _ h1, ok_bind]
    dsimp only at h ⊢
    obtain ⟨z, h2, h⟩ := bind_ok h
    rw [recipe_mono hv r _ _ _ h2, ok_bind]
    exact h
  | .quotient l r, d, q, x, h => by
    unfold getSystemRecipe at h ⊢
    obtain ⟨⟨y1, y2, y3⟩, h1, h⟩ := bind_ok h
    rw [recipe_mono hv l _ _ _ h1, ok_bind]
    dsimp only at h ⊢
    obtain ⟨z, h2, h⟩ := bind_ok h
    rw [recipe_mono hv r _ _ _ h2, ok_bind]
    exact h
  | .component n i, d, q, x, h => by
    unfold getSystemRecipe at h ⊢
    obtain ⟨c, h1, h⟩ := bind_ok h
    rw [hv n c h1, ok_bind]
    exact h

theorem system_mono {X : QueryEnv Z} {v v' : String → Res Component} (hv : ∀ n c, v n = .ok c → v' n = .ok c) {e : SysExpr}
    {x : Σ d, Sys (Z d)} (h : X.system v e = .ok x) : X.system v' e = .ok x := by
  unfold QueryEnv.system at h ⊢
  obtain ⟨y, h1, h⟩ := bind_ok h
  rw [recipe_mono hv _ _ _ _ h1, ok_bind]
  exact h

theorem run_mono {X : QueryEnv Z} {v v' : String → Res Component} (hv : ∀ n c, v n = .ok c → v' n = .ok c) {q : QueryExpr}
    {A : QueryOutcome Z} (h : X.run v q = .ok A) : X.run v' q = .ok A := by
  cases q with
  | refinement e e' =>
    unfold QueryEnv.run at h ⊢
    dsimp only at h ⊢
    unfold QueryEnv.refinement at h ⊢
    obtain ⟨⟨x1, x2, x3⟩, h1, h⟩ := bind_ok h
    rw [recipe_mono hv _ _ _ _ h1, ok_bind]
    dsimp only at h ⊢
    obtain ⟨y, h2, h⟩ := bind_ok h
    rw [recipe_mono hv _ _ _ _ h2, ok_bind]
    exact h
  | reachability e st g =>
    unfold QueryEnv.run at h ⊢
    dsimp only at h ⊢
    obtain ⟨x, h1, h⟩ := bind_ok h
    rw [recipe_mono hv _ _ _ _ h1, ok_bind]
    exact h
  | consistency e | determinism e | getComponent e | prune e =>
    unfold QueryEnv.run at h ⊢
    dsimp only at h ⊢
    obtain ⟨x, h1, h⟩ := bind_ok h
    rw [system_mono hv h1, ok_bind]
    exact h
  | implementation e => cases h
  | specification e => cases h
  | bisimMinim e => cases h

theorem queryOutcome_result {X : QueryEnv Z} {v : String → Res Component} {q : QueryExpr} {A : QueryOutcome Z} :
    queryOutcome X v q = .ok (.result A) ↔ X.run v q = .ok A := by
  unfold queryOutcome
  cases X.run v q with
  | ok B => exact ⟨fun h => (by cases h; rfl), fun h => (by cases h; rfl)⟩
  | error e =>
    refine ⟨fun h => ?_, fun h => (by cases h)⟩
    cases e with
    | err m =>
      dsimp only at h
      split at h
      · cases h
      · cases h
      · cases h
      · split at h <;> cases h
      · cases h
    | panic m => cases h
    | fuel => cases h

/-! ## The server -/

/-- The jobs of a server that starts with an empty cache, after any sequence of arrivals of requests and steps of requests. -/
def servedJobs (E : Nat → RequestEnv Z) (cache : ModelCache (List (String × Component)))
    (es : List (ServerEvent ProtoComponent ProtoDecision)) :
    List (Job ProtoComponent (List (String × Component)) (QueryOutcome Z) String ProtoDecision
      (Option ProtoState × List ProtoDecision)) :=
  (Server.after (fun i => (E i).calls) cache es).jobs

variable {E : Nat → RequestEnv Z} {size : Nat} {cache : ModelCache (List (String × Component))}
  {es : List (ServerEvent ProtoComponent ProtoDecision)}

theorem served_alone (hcache : ModelCache.new size = .ok cache) (hf : FaithfulHashes ((servedJobs E cache es).map (·.req)))
    {i : Nat} {j} (hj : (servedJobs E cache es)[i]? = some j) {r} (hr : j.phase = .answered r) :
    r = answerAlone (E i).calls j.req :=
  C40_isolated _ (fun _ _ => rfl) size cache hcache es hf i j hj r hr

theorem parse_calls {E : RequestEnv Z} {text : String} {qs : List QueryExpr} :
    E.calls.parseQueries text = .ok qs ↔ parseQueries text.toList = .ok qs := by
  show crashing _ = _ ↔ _
  rw [crashing_ok, orPanic_ok_iff]

theorem query_read (hcache : ModelCache.new size = .ok cache)
    (hf : FaithfulHashes ((servedJobs E cache es).map (·.req))) {i : Nat} {j}
    (hj : (servedJobs E cache es)[i]? = some j) {id user : Int} {text : String} {h : Nat} {ps : List ProtoComponent}
    {settings : Option Bool} (hreq : j.req = .query id user text (some (h, ps)) settings) {cs : List Component}
    (hs : requestComponents ps = .ok cs) {r} (hr : j.phase = .answered r) (A : QueryOutcome Z) :
    r = .ok (.result id A) ↔ Enableable Z cs ∧ ∃ q v, parseQueries text.toList = .ok [q] ∧
      (∀ name c, v name = .ok c ↔ InRequest Z cs name c) ∧
      ((E i).query.withSettings (settings.getD true)).run v q = .ok A := by
  have hr := served_alone hcache hf hj hr
  rw [hreq] at hr
  obtain ⟨m1, m2⟩ := request_model (Z := Z) hs
  rcases C40_query (E i).calls id user text h ps settings with ⟨m, h1, h2⟩ | ⟨msg, h1, st, h2⟩
  · rw [← hr] at h2
    have h1 : requestModel Z ps = .ok m := crashing_ok.1 h1
    constructor
    · rintro rfl
      cases h2 with
      | verdict hp hq =>
        exact ⟨m1.1 ⟨m, h1⟩, _, namedEntry m, parse_calls.1 hp, m2 m h1, queryOutcome_result.1 hq⟩
    · rintro ⟨_, q, v, hp, hv, hA⟩
      have hA : ((E i).query.withSettings (settings.getD true)).run (namedEntry m) q = .ok A :=
        run_mono (fun n c hc => (m2 m h1 n c).2 ((hv n c).1 hc)) hA
      have hA := queryOutcome_result.2 hA
      have hp := parse_calls (E := E i) |>.2 hp
      cases h2 with
      | parseCrash h' => rw [hp] at h'; cases h'
      | notOne h' h'' => rw [hp] at h'; cases h'; exact absurd rfl h''
      | crash h' h'' =>
        rw [hp] at h'; cases h'
        rw [show (E i).calls.runQuery q m (settings.getD true) = _ from hA] at h''; cases h''
      | notCreated h' h'' =>
        rw [hp] at h'; cases h'
        rw [show (E i).calls.runQuery q m (settings.getD true) = _ from hA] at h''; cases h''
      | recipe h' h'' =>
        rw [hp] at h'; cases h'
        rw [show (E i).calls.runQuery q m (settings.getD true) = _ from hA] at h''; cases h''
      | verdict h' h'' =>
        rw [hp] at h'; cases h'
        rw [show (E i).calls.runQuery q m (settings.getD true) = _ from hA] at h''; cases h''; rfl
  · rw [← hr] at h2
    subst h2
    refine ⟨fun h => (by cases h), fun ⟨h, _⟩ => ?_⟩
    obtain ⟨m, hm⟩ := m1.2 h
    rw [show (E i).calls.parseComponents ps = .ok m from crashing_ok.2 hm] at h1
    cases h1

/-- **C68** Whatever other requests the server gets and however their steps interleave: if the hashes of the components are
faithful, a query is answered with `A` exactly if `A` is the answer to it for the components of its own request. -/
theorem C68_query_partial (hcache : ModelCache.new size = .ok cache)
    (hf : FaithfulHashes ((servedJobs E cache es).map (·.req))) {i : Nat} {j}
    (hj : (servedJobs E cache es)[i]? = some j) {id user : Int} {text : String} {h : Nat} {ps : List ProtoComponent}
    {settings : Option Bool} (hreq : j.req = .query id user text (some (h, ps)) settings) {cs : List Component}
    (hs : Sends ps cs) {r} (hr : j.phase = .answered r) (A : QueryOutcome Z) :
    r = .ok (.result id A) ↔ Enableable Z cs ∧ ∃ q v, parseQueries text.toList = .ok [q] ∧
      (∀ name c, v name = .ok c ↔ InRequest Z cs name c) ∧
      ((E i).query.withSettings (settings.getD true)).run v q = .ok A := by
  exact query_read hcache hf hj hreq (sends_read hs) hr A

theorem inRequest_numbered {cs : List Component} (hn : ∀ c ∈ cs, c.decls.Numbered) {name : String} {c : Component}
    (h : InRequest Z cs name c) : c.decls.Numbered := by
  obtain ⟨pre, c0, post, rfl, _, _, h⟩ := h
  rw [(C28_kept _ _ _ h).2.1]
  exact hn c0 (by simp)

theorem QueryEnv.Fair.withSettings {X : QueryEnv Z} (h : X.Fair) (b : Bool) : (X.withSettings b).Fair :=
  ⟨h.compiled, h.acts, h.checks, h.outs, h.ins⟩

theorem inRequest_view (Z : Nat → Type) [∀ d, ZoneLib (Z d)] {cs : List Component} (h : Enableable Z cs) :
    ∃ v : String → Res Component, ∀ name c, v name = .ok c ↔ InRequest Z cs name c := by
  obtain ⟨h1, h2⟩ := container_form (Z := Z) cs
  obtain ⟨m, hm⟩ := h1.2 h
  exact ⟨_, h2 m hm⟩

/-- **C68** If a refinement query, written in any of the ways users write it, is answered with yes, the system it names first
refines the one it names second, where names mean the components of the request. -/
theorem C68_refinement_partial (hZ : ∀ d, dim (Z d) = d + 1) (hcache : ModelCache.new size = .ok cache)
    (hf : FaithfulHashes ((servedJobs E cache es).map (·.req))) {i : Nat} {j}
    (hj : (servedJobs E cache es)[i]? = some j) (hX : (E i).query.Fair) {id user : Int} {text : String} {h : Nat}
    {ps : List ProtoComponent} {settings : Option Bool} (hreq : j.req = .query id user text (some (h, ps)) settings)
    {b b' : List Blank} {w : QueryWritten} (hw : w.Fine) (htext : text.toList = blanks b ++ (w.text ++ blanks b'))
    {e e' : SysExpr} (hm : w.meaning = .refinement e e') {cs : List Component} (hs : Sends ps cs)
    (hn : ∀ c ∈ cs, c.decls.Numbered) {v : String → Res Component} (hv : ∀ name c, v name = .ok c ↔ InRequest Z cs name c)
    {l r : Recipe} {d : Nat} {q : Option Nat} (hr : getRecipes v [e, e'] 0 none = .ok ([l, r], d, q))
    (hc : ((E i).query.withSettings (settings.getD true)).Comparable l r d q) (s t : Sys (Z d)) (hl : l.Means s)
    (ht : r.Means t) (hconv : ∀ m w, t.ts.Reach m w → TimeConvex m)
    (hinit : ∀ l m, s.ts.initialLoc = .ok (some l) → t.ts.initialLoc = .ok (some m) →
      ∀ d, TS.CanDelay l zeroVal d → TS.CanDelay m zeroVal d)
    {d' : Nat} (hans : j.phase = .answered (.ok (.result id (.refinement d' none)))) : Refines s.ts t.ts := by
  obtain ⟨_, q1, v1, h1, h2, h3⟩ := (C68_query_partial hcache hf hj hreq hs hans _).1 rfl
  have h4 := C62_queries_partial b w [] b' hw (fun _ h => by cases h)
  rw [show QueryWritten.textRest [] ++ blanks b' = blanks b' from rfl, ← htext, h1] at h4
  cases h4
  rw [hm] at h3
  refine C64_refinement_partial hZ _ (hX.withSettings _) v (fun n c hc => inRequest_numbered hn ((hv n c).1 hc)) e e' l r d q hr hc
    s t hl ht hconv hinit d' (run_mono (fun n c hc => (hv n c).2 ((h2 n c).1 hc)) h3)

/-! ## Simulations -/

theorem system_of {E : RequestEnv Z} {composition : String} {m : List (String × Component)} {x : Σ d, Sys (Z d)}
    (h : E.system composition m = .ok x) : ∃ e r q k, parseSystem composition.toList = .ok e ∧
      getSystemRecipe (namedEntry m) e 0 none = .ok (r, x.1, q) ∧ r.compile (E.compiled x.1) 0 = .ok (x.2, k) := by
  unfold RequestEnv.system at h
  obtain ⟨e, h1, h⟩ := bind_ok h
  obtain ⟨⟨r, d, q⟩, h2, h⟩ := bind_ok h
  obtain ⟨⟨s, k⟩, h3, h⟩ := bind_ok h
  cases h
  exact ⟨e, r, q, k, orPanic_ok_iff.1 h1, h2, orPanic_ok_iff.1 h3⟩

/-- The system `composition` of a request with the components `cs`, as built with the orders `E`. -/
def SystemOf (E : RequestEnv Z) (cs : List Component) (composition : String) (d : Nat) (s : Sys (Z d)) : Prop :=
  ∃ e v r q k, parseSystem composition.toList = .ok e ∧ (∀ name c, v name = .ok c ↔ InRequest Z cs name c) ∧
    getSystemRecipe v e 0 none = .ok (r, d, q) ∧ r.compile (E.compiled d) 0 = .ok (s, k)

theorem system_iff {E : RequestEnv Z} {ps : List ProtoComponent} {cs : List Component} (hs : requestComponents ps = .ok cs)
    {m : List (String × Component)} (hm : requestModel Z ps = .ok m) {composition : String} {x : Σ d, Sys (Z d)} :
    E.system composition m = .ok x ↔ SystemOf E cs composition x.1 x.2 := by
  have hv := (request_model (Z := Z) hs).2 m hm
  constructor
  · intro h
    obtain ⟨e, r, q, k, h1, h2, h3⟩ := system_of h
    exact ⟨e, namedEntry m, r, q, k, h1, hv, h2, h3⟩
  · rintro ⟨e, v, r, q, k, h1, h2, h3, h4⟩
    have h5 := recipe_mono (fun n c hc => (hv n c).2 ((h2 n c).1 hc)) e 0 none _ h3
    unfold RequestEnv.system
    rw [h1, show orPanic (Except.ok e : Res SysExpr) = .ok e from rfl, ok_bind, h5, ok_bind]
    dsimp only
    rw [h4]
    rfl

/-- **C68** A request to start a simulation is answered with `a` exactly if `a` is the start of a simulation of the system it
names. -/
theorem C68_start_partial (hcache : ModelCache.new size = .ok cache)
    (hf : FaithfulHashes ((servedJobs E cache es).map (·.req))) {i : Nat} {j}
    (hj : (servedJobs E cache es)[i]? = some j) {user : Int} {composition : String} {h : Nat} {ps : List ProtoComponent}
    (hreq : j.req = .start (some ⟨user, composition, some (h, ps)⟩)) {cs : List Component} (hs : Sends ps cs) {r}
    (hr : j.phase = .answered r) (a : Option ProtoState × List ProtoDecision) :
    r = .ok (.simulation a) ↔ Enableable Z cs ∧ ∃ d s, SystemOf (E i) cs composition d s ∧
      startSimulation (E i).clocks s ((E i).actions d s) = .ok a := by
  have h1 := served_alone hcache hf hj hr
  rw [hreq, answerAlone_eq] at h1
  dsimp only [Request.prepare] at h1
  obtain ⟨m1, _⟩ := request_model (Z := Z) (sends_read hs)
  cases hm : (E i).calls.parseComponents ps with
  | error msg =>
    rw [hm] at h1
    refine ⟨fun e => (by rw [h1] at e; cases e), fun ⟨h, _⟩ => ?_⟩
    obtain ⟨m, hm'⟩ := m1.2 h
    rw [show (E i).calls.parseComponents ps = .ok m from crashing_ok.2 hm'] at hm
    cases hm
  | ok m =>
    rw [hm] at h1
    have hm : requestModel Z ps = .ok m := crashing_ok.1 hm
    dsimp only [Request.finish] at h1
    have hiff : (E i).calls.startSimulation composition m = .ok a ↔ ∃ d s, SystemOf (E i) cs composition d s ∧
        startSimulation (E i).clocks s ((E i).actions d s) = .ok a := by
      refine crashing_ok.trans ⟨fun h => ?_, fun ⟨d, s, h2, h3⟩ => ?_⟩
      · obtain ⟨⟨d, s⟩, h2, h3⟩ := bind_ok h
        exact ⟨d, s, (system_iff (sends_read hs) hm).1 h2, h3⟩
      · rw [(system_iff (sends_read hs) hm (x := ⟨d, s⟩)).2 h2, ok_bind]
        exact h3
    rw [← hiff]
    cases ha : (E i).calls.startSimulation composition m with
    | error msg => rw [ha] at h1; exact ⟨fun e => (by rw [h1] at e; cases e), fun h => (by cases h.2)⟩
    | ok a' =>
      rw [ha] at h1
      subst h1
      exact ⟨fun h => (by cases h; exact ⟨m1.1 ⟨m, hm⟩, rfl⟩), fun h => (by cases h.2; rfl)⟩

/-- **C68** A request to take a step of a simulation is answered with `a` exactly if `a` is what comes after the decision it
brings, in the system it names. -/
theorem C68_step_partial (hcache : ModelCache.new size = .ok cache)
    (hf : FaithfulHashes ((servedJobs E cache es).map (·.req))) {i : Nat} {j}
    (hj : (servedJobs E cache es)[i]? = some j) {user : Int} {composition : String} {h : Nat} {ps : List ProtoComponent}
    {q : ProtoDecision} (hreq : j.req = .step (some ⟨user, composition, some (h, ps)⟩) (some q)) {cs : List Component}
    (hs : Sends ps cs) {r} (hr : j.phase = .answered r) (a : Option ProtoState × List ProtoDecision) :
    r = .ok (.simulation a) ↔ Enableable Z cs ∧ ∃ d s, SystemOf (E i) cs composition d s ∧
      stepSimulation (E i).clocks s ((E i).actions d s) q = .ok a := by
  have h1 := served_alone hcache hf hj hr
  rw [hreq, answerAlone_eq] at h1
  dsimp only [Request.prepare] at h1
  obtain ⟨m1, _⟩ := request_model (Z := Z) (sends_read hs)
  cases hm : (E i).calls.parseComponents ps with
  | error msg =>
    rw [hm] at h1
    refine ⟨fun e => (by rw [h1] at e; cases e), fun ⟨h, _⟩ => ?_⟩
    obtain ⟨m, hm'⟩ := m1.2 h
    rw [show (E i).calls.parseComponents ps = .ok m from crashing_ok.2 hm'] at hm
    cases hm
  | ok m =>
    rw [hm] at h1
    have hm : requestModel Z ps = .ok m := crashing_ok.1 hm
    dsimp only [Request.finish] at h1
    have hiff : (E i).calls.stepSimulation composition m q = .ok a ↔ ∃ d s, SystemOf (E i) cs composition d s ∧
        stepSimulation (E i).clocks s ((E i).actions d s) q = .ok a := by
      refine crashing_ok.trans ⟨fun h => ?_, fun ⟨d, s, h2, h3⟩ => ?_⟩
      · obtain ⟨⟨d, s⟩, h2, h3⟩ := bind_ok h
        exact ⟨d, s, (system_iff (sends_read hs) hm).1 h2, h3⟩
      · rw [(system_iff (sends_read hs) hm (x := ⟨d, s⟩)).2 h2, ok_bind]
        exact h3
    rw [← hiff]
    cases ha : (E i).calls.stepSimulation composition m q with
    | error msg => rw [ha] at h1; exact ⟨fun e => (by rw [h1] at e; cases e), fun h => (by cases h.2)⟩
    | ok a' =>
      rw [ha] at h1
      subst h1
      exact ⟨fun h => (by cases h; exact ⟨m1.1 ⟨m, hm⟩, rfl⟩), fun h => (by cases h.2; rfl)⟩

/-- The decisions a client has been offered in a simulation of `composition` with the components `cs`: those of a request to start
it, and those of a request to take one of the decisions offered so far.  Every request brings the components again; the
requests may come from different users, in different forms, and any number of other requests may come in between. -/
inductive Offered (jobs : List (Job ProtoComponent (List (String × Component)) (QueryOutcome Z) String ProtoDecision
    (Option ProtoState × List ProtoDecision))) (cs : List Component) (composition : String) : List ProtoDecision → Prop
  | start {i : Nat} {j user h ps st qs} : jobs[i]? = some j → j.req = .start (some ⟨user, composition, some (h, ps)⟩) →
      Sends ps cs → j.phase = .answered (.ok (.simulation (st, qs))) → Offered jobs cs composition qs
  | step {i : Nat} {j user h ps st qs q qs'} : Offered jobs cs composition qs → q ∈ qs → jobs[i]? = some j →
      j.req = .step (some ⟨user, composition, some (h, ps)⟩) (some q) → Sends ps cs →
      j.phase = .answered (.ok (.simulation (st, qs'))) → Offered jobs cs composition qs'

/-- Hash maps and sets are gone through in some order. -/
structure RequestEnv.Fair (E : RequestEnv Z) : Prop where
  compiled : ∀ d, (E.compiled d).Perm
  clocks : ∀ l, (E.clocks l).Perm l
  actions : ∀ d s, ∀ a ∈ E.actions d s, s.hasAction a = true

/-- **C68** A simulation over any number of requests goes through decisions of the system that was named: those it would offer
if everything happened in one process, with the same valuations. -/
theorem C68_simulation_partial (hE : ∀ i, (E i).Fair) (hcache : ModelCache.new size = .ok cache)
    (hf : FaithfulHashes ((servedJobs E cache es).map (·.req))) {composition : String} {e : SysExpr}
    (he : parseSystem composition.toList = .ok e) {cs : List Component} {v : String → Res Component}
    (hv : ∀ name c, v name = .ok c ↔ InRequest Z cs name c) {r : Recipe} {d : Nat} {q : Option Nat}
    (hr : getSystemRecipe v e 0 none = .ok (r, d, q)) (hok : r.Ok (dim (Z d))) (hct : r.ClockTables) (hdim : dim (Z d) ≤ 2 ^ 32)
    {qs : List ProtoDecision} (h : Offered (servedJobs E cache es) cs composition qs) :
    ∃ (env : CompileEnv (Z d)) (s : Sys (Z d)) (j : Nat) (ds : List (Decision (Z d))), env.Perm ∧
      r.compile env 0 = .ok (s, j) ∧ LocalRun s ds ∧ List.Forall₂ (Describes r) qs ds := by
  have key : ∀ {i d'} {s : Sys (Z d')}, SystemOf (E i) cs composition d' s →
      ∃ k, d' = d ∧ r.compile ((E i).compiled d') 0 = .ok (s, k) := by
    rintro i d' s ⟨e1, v1, r1, q1, k, h1, h2, h3, h4⟩
    rw [he] at h1
    cases h1
    have h5 := recipe_mono (fun n c hc => (hv n c).2 ((h2 n c).1 hc)) e 0 none _ h3
    rw [hr] at h5
    cases h5
    exact ⟨k, rfl, h4⟩
  refine C57_sound hok hct hdim ?_
  induction h with
  | start hj hreq hs hans =>
    rename_i i j user h ps st qs
    obtain ⟨_, d', s, h1, h2⟩ := (C68_start_partial hcache hf hj hreq hs hans _).1 rfl
    obtain ⟨k, rfl, h3⟩ := key h1
    exact .start ((hE i).compiled d') h3 (hE i).clocks ((hE i).actions d' s) h2
  | step hrun hq hj hreq hs hans ih =>
    rename_i i j user h ps st qs q qs'
    obtain ⟨_, d', s, h1, h2⟩ := (C68_step_partial hcache hf hj hreq hs hans _).1 rfl
    obtain ⟨k, rfl, h3⟩ := key h1
    exact .step ih hq ((hE i).compiled d') h3 (hE i).clocks ((hE i).actions d' s) h2

/-! ## Where it is not so -/

/-- **C68 is violated** A description that cannot be read, be it that the text is not JSON or that a guard or an update has a
syntax error, is left out without a word: the request is served as if it were not there. -/
theorem C68_violated_dropped (ps ps' : List ProtoComponent) (p : ProtoComponent) {msg : String}
    (hp : p.components = .error (.err msg)) : requestComponents (ps ++ p :: ps') = requestComponents (ps ++ ps') := by
  induction ps with
  | nil =>
    show requestComponents (p :: ps') = requestComponents ps'
    rw [requestComponents, hp]
  | cons p' ps ih =>
    rw [List.cons_append, List.cons_append]
    unfold requestComponents
    rw [ih]

/-! ## Examples -/

theorem step_req {C M Q R G D S : Type} (calls : Calls C M Q R G D S) (cache : ModelCache M) (j : Job C M R G D S) :
    (j.step calls cache).1.req = j.req := by
  unfold Job.step
  dsimp only
  split
  · split <;> rfl
  · split <;> rfl
  · split <;> rfl
  · rfl
  · rfl

/-- The request that arrives. -/
def ServerEvent.request {C D : Type} : ServerEvent C D → Option (Request C D)
  | .arrive r => some r
  | .run _ => none

/-- The requests of the jobs are the ones that arrived. -/
theorem jobs_reqs {C M Q R G D S : Type} (calls : Nat → Calls C M Q R G D S) (es : List (ServerEvent C D))
    (s : Server C M R G D S) : (es.foldl (Server.event calls) s).jobs.map (·.req) =
      s.jobs.map (·.req) ++ es.filterMap ServerEvent.request := by
  induction es generalizing s with
  | nil => simp
  | cons e es ih =>
    rw [List.foldl_cons, ih]
    cases e with
    | arrive r => simp [Server.event, ServerEvent.request]
    | run i =>
      have : (s.event calls (.run i)).jobs.map (·.req) = s.jobs.map (·.req) := by
        unfold Server.event
        dsimp only
        split
        · rfl
        · rename_i j hj
          refine List.ext_getElem? fun k => ?_
          rw [List.getElem?_map, List.getElem?_map, List.getElem?_set]
          split
          · rename_i h
            subst h
            split
            · rw [hj]; exact congrArg some (step_req _ _ _)
            · rename_i h
              rw [List.getElem?_eq_none (by omega)]
          · rfl
      rw [this]
      rfl

/-- A request that is given four steps is answered. -/
theorem served_answered (E : Nat → RequestEnv Z) (cache : ModelCache (List (String × Component)))
    (es es' : List (ServerEvent ProtoComponent ProtoDecision)) (i : Nat) (req : Request ProtoComponent ProtoDecision)
    (hi : (es.filterMap ServerEvent.request)[i]? = some req)
    (h4 : 4 ≤ (es'.filter fun e => match e with | .run k => k == i | _ => false).length) :
    ∃ r, (servedJobs E cache (es ++ es'))[i]? = some ⟨req, .answered r⟩ := by
  have hreq := jobs_reqs (fun i => (E i).calls) es ⟨cache, []⟩
  rw [List.map_nil, List.nil_append] at hreq
  have hlt : i < (es.foldl (Server.event fun i => (E i).calls) ⟨cache, []⟩).jobs.length := by
    rw [← List.length_map (f := (·.req)), hreq]
    exact (List.getElem?_eq_some_iff.1 hi).1
  obtain ⟨j, r, h1, h2⟩ := C40_total (fun i => (E i).calls) (es.foldl (Server.event fun i => (E i).calls) ⟨cache, []⟩) es' i hlt
    (le_of_le_of_eq h4 (by congr; funext e; cases e <;> rfl))
  have h3 : (servedJobs E cache (es ++ es'))[i]? = some j := by
    unfold servedJobs Server.after
    rw [List.foldl_append]
    exact h1
  obtain ⟨jr, jp⟩ := j
  have h5 := jobs_reqs (fun i => (E i).calls) (es ++ es') ⟨cache, []⟩
  rw [List.map_nil, List.nil_append, List.filterMap_append] at h5
  have h6 := congrArg (fun l => l[i]?) h5
  beta_reduce at h6
  rw [List.getElem?_map, List.getElem?_append_left (List.getElem?_eq_some_iff.1 hi).1, hi] at h6
  have h7 : some jr = some req := by
    rw [← h6]
    exact (congrArg (Option.map (·.req)) h3).symm
  cases h7
  cases h2
  exact ⟨r, h3⟩

def exClientRaw : RawComponent := ⟨"A", "clock x, u;", [⟨"L0", "x<=5".toList, "INITIAL", "NORMAL"⟩],
  [⟨"e", "L0", "L0", "OUTPUT", "x>=2".toList, "x=0, u=0".toList, "out"⟩]⟩
def exServerRaw : RawComponent := ⟨"B", "clock y;", [⟨"M0", [], "INITIAL", "NORMAL"⟩],
  [⟨"f", "M0", "M0", "OUTPUT", "y>=1".toList, "y=0".toList, "out"⟩]⟩

theorem exClientRaw_read : exClientRaw.read = .ok exClient := by decide +kernel
theorem exServerRaw_read : exServerRaw.read = .ok (exServer 1) := by decide +kernel

theorem exPair_sent : Sends [.json (some exClientRaw), .empty, .json (some exServerRaw)] [exClient, exServer 1] :=
  ⟨[[exClient], [], [exServer 1]], .cons (.json exClientRaw_read) (.cons .empty (.cons (.json exServerRaw_read) .nil)), rfl⟩

def exPairModel : List (String × Component) := [("A", exClient), ("B", exServer 1)]

theorem exPair_model : containerOf FedD [exClient, exServer 1] = .ok exPairModel := by decide +kernel

theorem exPair_enableable : Enableable FedD [exClient, exServer 1] := (container_form _).1.1 ⟨_, exPair_model⟩

def exRequests : RequestEnv FedD := ⟨plainQueries true, fun d => envK (FedD d), id, fun _ s => mkSet (s.ts.inputs ++ s.ts.outputs)⟩

/-- `refinement: A <= B` -/
def exAsked : QueryWritten := .refinement [.newline, .space] (nm "A") [] [.space] (nm "B")

def exAskedText : String := String.ofList (blanks [] ++ (exAsked.text ++ blanks [.space]))

theorem exAsked_fine : exAsked.Fine := ⟨⟨trivial, isName_of rfl (by decide)⟩, trivial, isName_of rfl (by decide)⟩

theorem exPair_yes : (plainQueries (Z := FedD) true).run (namedEntry exPairModel) (.refinement (.component "A" none) (.component "B" none)) =
    .ok (.refinement 2 none) := refinementAnswer_yes (by decide +kernel)

theorem exAsked_parsed : parseQueries exAskedText.toList = .ok [exAsked.meaning] := by
  unfold exAskedText
  rw [String.toList_ofList]
  exact C62_queries_partial [] exAsked [] [.space] exAsked_fine (fun _ h => by cases h)

/-- A query about `A` and `B`, with both. -/
def exAskRequest (ps : List ProtoComponent) : Request ProtoComponent ProtoDecision := .query 7 1 exAskedText (some (0, ps)) (some false)

def exAskEvents (ps : List ProtoComponent) : List (ServerEvent ProtoComponent ProtoDecision) :=
  [.arrive (exAskRequest ps), .arrive (.start none), .run 1, .run 0, .run 0, .run 1, .run 0, .run 0]

theorem exAsk_faithful (cache : ModelCache (List (String × Component))) (ps : List ProtoComponent) :
    FaithfulHashes ((servedJobs (fun _ => exRequests) cache (exAskEvents ps)).map (·.req)) := by
  have h : (servedJobs (fun _ => exRequests) cache (exAskEvents ps)).map (·.req) = [exAskRequest ps, .start none] :=
    jobs_reqs _ _ _
  rw [h]
  intro r hr r' hr' u k cs cs' h1 h2 hk
  simp only [List.mem_cons, List.not_mem_nil, or_false] at hr hr'
  rcases hr with rfl | rfl
  · cases h1; exact absurd rfl hk
  · cases h1

/-- The hypotheses of `C68_query_partial` and `C68_refinement_partial` hold for a server with two requests, one of which crashes,
and the answer is yes. -/
example : ∃ cache : ModelCache (List (String × Component)), ModelCache.new 3 = .ok cache ∧
    ∃ j, (servedJobs (fun _ => exRequests) cache (exAskEvents [.json (some exClientRaw), .empty, .json (some exServerRaw)]))[0]? = some j ∧
      j.phase = .answered (.ok (.result 7 (.refinement 2 none))) ∧ Refines sysClient.ts sysServer.ts := by
  refine ⟨_, rfl, ?_⟩
  generalize hps : [ProtoComponent.json (some exClientRaw), .empty, .json (some exServerRaw)] = ps
  have hsent := exPair_sent
  rw [hps] at hsent
  obtain ⟨r, hr⟩ := served_answered (fun _ => exRequests) ⟨3, []⟩ [.arrive (exAskRequest ps)]
    [.arrive (.start none), .run 1, .run 0, .run 0, .run 1, .run 0, .run 0] 0 _ rfl (by decide)
  have hv := (container_form (Z := FedD) [exClient, exServer 1]).2 _ exPair_model
  have hyes := (C68_query_partial (size := 3) rfl (exAsk_faithful _ ps) hr (h := 0) rfl hsent rfl (.refinement 2 none)).2
    ⟨exPair_enableable, _, _, exAsked_parsed, hv, exPair_yes⟩
  subst hyes
  refine ⟨_, hr, rfl, ?_⟩
  refine C68_refinement_partial dim_fedD (size := 3) rfl (exAsk_faithful _ ps) hr (plainQueries_fair _) (h := 0) rfl exAsked_fine
    (b := []) (b' := [.space]) (by unfold exAskedText; rw [String.toList_ofList]) rfl hsent ?_ hv
    (l := .component exClient none) (r := .component (exServer3 1) none) (d := 3) (q := none) rfl
    (exTwo_comparable true (.inl rfl)) sysClient sysServer exTwo_means.1 exTwo_means.2.1 ?_ (sysServer_initial (k := 1) (.inl rfl)) rfl
  · intro c hc
    simp only [List.mem_cons, List.not_mem_nil, or_false] at hc
    rcases hc with rfl | rfl <;> exact .refl _
  · intro m w hr
    exact Sys.convex_comp (c := exServer3 1) (Component.ok_of_okB (by decide)) (fun _ => .refl _) (getOk_eq _) (fun l hl g hg => by
      rw [List.mem_singleton.1 hl] at hg; cases hg) m (sysServer_good.reach hr).1

/-- `A` with a typing error in a guard. -/
def exClientTypo : RawComponent := { exClientRaw with edges := [⟨"e", "L0", "L0", "OUTPUT", "x>>2".toList, "x=0, u=0".toList, "out"⟩] }

theorem exClientTypo_read : ∃ msg, exClientTypo.read = .error (.err msg) := by
  have h : (match exClientTypo.read with | .error (.err _) => true | _ => false) = true := by decide +kernel
  split at h
  · exact ⟨_, by assumption⟩
  · cases h

/-- **C68 is violated** A request whose newest version of a component has a typing error in a guard is answered for the version
before. -/
theorem C68_violated_stale : (∃ msg, exClientTypo.read = .error (.err msg)) ∧
    ∃ cache : ModelCache (List (String × Component)), ModelCache.new 3 = .ok cache ∧ ∃ es j,
      (servedJobs (fun _ => exRequests) cache es)[0]? = some j ∧
      j.req = .query 7 1 exAskedText (some (0, [.json (some exClientRaw), .json (some exServerRaw), .json (some exClientTypo)])) (some false) ∧
      j.phase = .answered (.ok (.result 7 (.refinement 2 none))) := by
  refine ⟨exClientTypo_read, _, rfl, ?_⟩
  obtain ⟨msg, hmsg⟩ := exClientTypo_read
  have hread : requestComponents [.json (some exClientRaw), .json (some exServerRaw), .json (some exClientTypo)] =
      .ok [exClient, exServer 1] := by
    refine (C68_violated_dropped [.json (some exClientRaw), .json (some exServerRaw)] [] (.json (some exClientTypo)) (msg := msg) ?_).trans
      (sends_read ⟨[[exClient], [exServer 1]], .cons (.json exClientRaw_read) (.cons (.json exServerRaw_read) .nil), rfl⟩)
    show (_ >>= _) = _
    rw [hmsg]
    rfl
  generalize [ProtoComponent.json (some exClientRaw), .json (some exServerRaw), .json (some exClientTypo)] = ps at hread
  obtain ⟨r, hr⟩ := served_answered (fun _ => exRequests) ⟨3, []⟩ [.arrive (exAskRequest ps)]
    [.arrive (.start none), .run 1, .run 0, .run 0, .run 1, .run 0, .run 0] 0 _ rfl (by decide)
  have hv := (container_form (Z := FedD) [exClient, exServer 1]).2 _ exPair_model
  have hyes := (query_read (size := 3) rfl (exAsk_faithful _ ps) hr (h := 0) rfl hread rfl (.refinement 2 none)).2
    ⟨exPair_enableable, _, _, exAsked_parsed, hv, exPair_yes⟩
  subst hyes
  exact ⟨_, _, hr, rfl, rfl⟩

/-- **C68 is violated** A query about a component that was left out gets an internal error, which asks the user to report a bug. -/
theorem C68_violated_blame : ∃ cache : ModelCache (List (String × Component)), ModelCache.new 3 = .ok cache ∧ ∃ es j msg,
      (servedJobs (fun _ => exRequests) cache es)[0]? = some j ∧
      j.req = .query 7 1 exAskedText (some (0, [.json (some exClientTypo), .json (some exServerRaw)])) (some false) ∧
      j.phase = .answered (.error (.internal (msg ++ ", please report this bug to the developers"))) := by
  refine ⟨_, rfl, ?_⟩
  obtain ⟨msg, hmsg⟩ := exClientTypo_read
  have hread : requestComponents [.json (some exClientTypo), .json (some exServerRaw)] = .ok [exServer 1] := by
    refine (C68_violated_dropped [] [.json (some exServerRaw)] (.json (some exClientTypo)) (msg := msg) ?_).trans
      (sends_read ⟨[[exServer 1]], .cons (.json exServerRaw_read) .nil, rfl⟩)
    show (_ >>= _) = _
    rw [hmsg]
    rfl
  have hm : containerOf FedD [exServer 1] = .ok [("B", exServer 1)] := by decide +kernel
  generalize [ProtoComponent.json (some exClientTypo), .json (some exServerRaw)] = ps at hread
  obtain ⟨r, hr⟩ := served_answered (fun _ => exRequests) ⟨3, []⟩ [.arrive (exAskRequest ps)]
    [.arrive (.start none), .run 1, .run 0, .run 0, .run 1, .run 0, .run 0] 0 _ rfl (by decide)
  have hal := served_alone (size := 3) rfl (exAsk_faithful _ ps) hr rfl
  have hparse : exRequests.calls.parseQueries exAskedText = .ok [.refinement (.component "A" none) (.component "B" none)] :=
    parse_calls.2 exAsked_parsed
  have hrun : ∃ msg, exRequests.calls.runQuery (.refinement (.component "A" none) (.component "B" none)) [("B", exServer 1)] false =
      .error msg := ⟨_, rfl⟩
  obtain ⟨msg', hrun⟩ := hrun
  refine ⟨_, _, msg', hr, rfl, ?_⟩
  refine congrArg Phase.answered ?_
  rcases C40_query exRequests.calls 7 1 exAskedText 0 ps (some false) with ⟨m, h1, h2⟩ | ⟨msg, h1, st, h2⟩
  · have h1 : requestModel FedD ps = .ok m := crashing_ok.1 h1
    unfold requestModel at h1
    rw [hread, ok_bind, hm] at h1
    cases h1
    have h2 : QueryAnswer exRequests.calls 7 exAskedText (some false) [("B", exServer 1)] r := by rw [hal]; exact h2
    cases h2 with
    | parseCrash h' => rw [hparse] at h'; cases h'
    | notOne h' h'' => rw [hparse] at h'; cases h'; exact absurd rfl h''
    | crash h' h'' =>
      rw [hparse] at h'; cases h'
      have h'' := hrun.symm.trans h''
      cases h''; rfl
    | notCreated h' h'' =>
      rw [hparse] at h'; cases h'
      have h'' := hrun.symm.trans h''
      cases h''
    | recipe h' h'' =>
      rw [hparse] at h'; cases h'
      have h'' := hrun.symm.trans h''
      cases h''
    | verdict h' h'' =>
      rw [hparse] at h'; cases h'
      have h'' := hrun.symm.trans h''
      cases h''
  · have h1' : exRequests.calls.parseComponents ps = .ok [("B", exServer 1)] := by
      refine crashing_ok.2 ?_
      unfold requestModel
      rw [hread, ok_bind, hm]
    rw [h1'] at h1
    cases h1

/-- Whether the entry has an edge for the action. -/
def takesAction (m : Res (List (String × Component))) (name a : String) : Option Bool :=
  match m with
  | .ok m => (m.lookup name).map fun c => (c.edges.map (·.action)).contains a
  | .error _ => none

/-- **C68 is violated** What an XML project declares about inputs is heeded when the project is opened and not when it is sent to the
server: opened from a file, `S` accepts its declared input `b`; sent in a request, it does not have it. -/
theorem C68_violated_declared : takesAction (exShyProject.openProject FedD) "S" "b" = some true ∧
    takesAction (requestModel FedD [.xml (some exShyProject)]) "S" "b" = some false := by
  constructor <;> decide +kernel

/-! A simulation of `A`, over two requests of different users. -/

def exAlone : Sys (FedD 2) := .comp (getOk (CompComp.compile id exClient 0) (by decide +kernel))

theorem exAlone_compiled : (Recipe.component exClient none).compile (envK (FedD 2)) 0 = .ok (exAlone, 1) := rfl

theorem exAlone_ok : (Recipe.component exClient none).Ok (dim (FedD 2)) := by
  refine ⟨fun c hc => ?_, fun q hq => by cases hq⟩
  rw [List.mem_singleton.1 hc]; exact Component.ok_of_okB (by decide)

theorem exAlone_model : containerOf FedD [exClient] = .ok [("A", exClient)] := by decide +kernel

theorem exAlone_parsed : parseSystem "A".toList = .ok (.component "A" none) := by rfl

theorem exAlone_system : SystemOf exRequests [exClient] "A" 2 exAlone :=
  ⟨_, namedEntry [("A", exClient)], .component exClient none, none, 1, exAlone_parsed,
    (container_form (Z := FedD) [exClient]).2 _ exAlone_model, rfl, exAlone_compiled⟩

def exStarted : Res (Option ProtoState × List ProtoDecision) := startSimulation id exAlone ["out"]
def exTaken (q : ProtoDecision) : Res (Option ProtoState × List ProtoDecision) := stepSimulation id exAlone ["out"] q

theorem exStarted_ok : (match exStarted with | .ok (_, q :: _) => (match exTaken q with | .ok (_, qs) => qs.length | _ => 0) | _ => 0) = 1 := by
  decide +kernel

theorem exRequests_fair : exRequests.Fair :=
  ⟨fun _ => envK_perm, fun _ => .refl _, fun _ s a ha => by
    have : a ∈ mkSet (s.ts.inputs ++ s.ts.outputs) := ha
    rw [mem_mkSet, List.mem_append] at this
    unfold Sys.hasAction
    rw [Bool.or_eq_true, List.contains_iff_mem, List.contains_iff_mem]
    exact this⟩

/-- The hypotheses of `C68_simulation_partial` hold: a simulation is started and a step is taken, by requests of different users
that send the component in different ways, with a crashing request in between. -/
example : ∃ (cache : ModelCache (List (String × Component))) (es : List (ServerEvent ProtoComponent ProtoDecision)) (qs : List ProtoDecision),
    ModelCache.new 3 = .ok cache ∧ Offered (servedJobs (fun _ => exRequests) cache es) [exClient] "A" qs ∧ qs.length = 1 ∧
    ∃ (s : Sys (FedD 2)) (ds : List (Decision (FedD 2))), LocalRun s ds ∧ List.Forall₂ (Describes (.component exClient none)) qs ds := by
  have h := exStarted_ok
  split at h
  case h_2 => cases h
  rename_i st q rest hst
  split at h
  case h_2 => cases h
  rename_i st' qs hqs
  have hen : Enableable FedD [exClient] := (container_form _).1.1 ⟨_, exAlone_model⟩
  let r0 : Request ProtoComponent ProtoDecision := .start (some ⟨1, "A", some (5, [.json (some exClientRaw)])⟩)
  let r1 : Request ProtoComponent ProtoDecision := .step (some ⟨2, "A", some (6, [.empty, .json (some exClientRaw)])⟩) (some q)
  let es0 : List (ServerEvent ProtoComponent ProtoDecision) := [.arrive r0, .arrive (.start none), .run 0, .run 1, .run 0, .run 0, .run 0]
  let es1 : List (ServerEvent ProtoComponent ProtoDecision) := [.run 2, .run 2, .run 2, .run 2]
  have s0 : Sends [.json (some exClientRaw)] [exClient] := ⟨[[exClient]], .cons (.json exClientRaw_read) .nil, rfl⟩
  have s1 : Sends [.empty, .json (some exClientRaw)] [exClient] :=
    ⟨[[], [exClient]], .cons .empty (.cons (.json exClientRaw_read) .nil), rfl⟩
  have hcache : ModelCache.new 3 = .ok (⟨3, []⟩ : ModelCache (List (String × Component))) := rfl
  have hf : FaithfulHashes ((servedJobs (fun _ => exRequests) ⟨3, []⟩ (es0 ++ .arrive r1 :: es1)).map (·.req)) := by
    have h : (servedJobs (fun _ => exRequests) ⟨3, []⟩ (es0 ++ .arrive r1 :: es1)).map (·.req) = [r0, .start none, r1] :=
      jobs_reqs _ _ _
    rw [h]
    intro r hr r' hr' u k cs cs' h1 h2 hk
    simp only [List.mem_cons, List.not_mem_nil, or_false] at hr hr'
    rcases hr with rfl | rfl | rfl
    · rcases hr' with rfl | rfl | rfl
      · cases h1; cases h2; rfl
      · cases h2
      · cases h1; cases h2
    · cases h1
    · rcases hr' with rfl | rfl | rfl
      · cases h1; cases h2
      · cases h2
      · cases h1; cases h2; rfl
  let es2 : List (ServerEvent ProtoComponent ProtoDecision) := [.arrive (.start none), .run 0, .run 1, .run 0, .run 0, .run 0, .arrive r1]
  obtain ⟨a0, j0⟩ := served_answered (fun _ => exRequests) ⟨3, []⟩ [.arrive r0] (es2 ++ es1) 0 r0 rfl (Nat.le_refl 4)
  obtain ⟨a1, j1⟩ := served_answered (fun _ => exRequests) ⟨3, []⟩ (es0 ++ [.arrive r1]) es1 2 r1 rfl (by decide)
  have e0 := (C68_start_partial hcache hf (i := 0) j0 rfl s0 rfl (st, q :: rest)).2 ⟨hen, 2, exAlone, exAlone_system, hst⟩
  have e1 := (C68_step_partial hcache hf (i := 2) j1 rfl s1 rfl (st', qs)).2 ⟨hen, 2, exAlone, exAlone_system, hqs⟩
  subst e0 e1
  have hoff : Offered (servedJobs (fun _ => exRequests) ⟨3, []⟩ (es0 ++ .arrive r1 :: es1)) [exClient] "A" qs :=
    .step (.start (i := 0) j0 rfl s0 rfl) (q := q) (by simp) (i := 2) j1 rfl s1 rfl
  refine ⟨_, _, qs, hcache, hoff, h, ?_⟩
  obtain ⟨_, s, _, ds, _, _, h1, h2⟩ := C68_simulation_partial (fun _ => exRequests_fair) hcache hf exAlone_parsed
    ((container_form (Z := FedD) [exClient]).2 _ exAlone_model) (r := .component exClient none) (d := 2) (q := none) rfl
    exAlone_ok (fun c hc => by rw [List.mem_singleton.1 hc]; decide) (by decide) hoff
  exact ⟨s, ds, h1, h2⟩

end Reveaal
