import Verif.Spec.Xml
import Verif.Props.C66

/-!
# C67: a component is the same in XML and in JSON

*An XML element and a JSON object that describe the same component are read as the same component, except that edges have no
names; it takes the same steps.*
-/

namespace Reveaal
open ZoneLib

/-! ## Reading -/

theorem unwrap_ok {α : Type} {o : Option α} {a : α} : unwrap o = .ok a ↔ o = some a := by
  cases o <;> simp [unwrap]

theorem Xml.find_eq (x : Xml) (t : String) : x.find t = (x.findAll t).head? := by
  unfold Xml.find Xml.findAll
  rw [List.head?_filter]

/-- one reader succeeds exactly if the other does, and `h` relates the results -/
def Agrees {α β : Type} (h : α → β) (x : Res β) (y : Res α) : Prop := ∀ b, x = .ok b ↔ ∃ a, y = .ok a ∧ b = h a

theorem Agrees.mapM {α β γ δ : Type} {R : γ → δ → Prop} {f : γ → Res β} {g : δ → Res α} {h : α → β}
    (hR : ∀ x y, R x y → Agrees h (f x) (g y)) : ∀ {xs : List γ} {ys : List δ}, List.Forall₂ R xs ys →
      Agrees (List.map h) (xs.mapM f) (ys.mapM g)
  | [], [], .nil => fun b => by
    constructor
    · intro e; cases e; exact ⟨[], rfl, rfl⟩
    · rintro ⟨a, e, rfl⟩; cases e; rfl
  | x :: xs, y :: ys, .cons h1 h2 => fun b => by
    rw [List.mapM_cons, List.mapM_cons]
    constructor
    · intro e
      obtain ⟨b1, e1, e⟩ := bind_ok e
      obtain ⟨bs, e2, e⟩ := bind_ok e
      cases e
      obtain ⟨a1, f1, rfl⟩ := (hR x y h1 b1).1 e1
      obtain ⟨as, f2, rfl⟩ := (Agrees.mapM hR h2 bs).1 e2
      exact ⟨a1 :: as, by rw [f1, f2]; rfl, rfl⟩
    · rintro ⟨a, e, rfl⟩
      obtain ⟨a1, e1, e⟩ := bind_ok e
      obtain ⟨as, e2, e⟩ := bind_ok e
      cases e
      rw [(hR x y h1 _).2 ⟨a1, e1, rfl⟩, (Agrees.mapM hR h2 _).2 ⟨as, e2, rfl⟩]
      rfl

/-! ### Declarations -/

theorem foldlM_map_split {α : Type} (f : α → List Char → Res α) (g : List Char → List Char) : ∀ (l : List (List Char)) (a : α),
    l.foldlM (fun a d => f a (g d)) a = (l.map g).foldlM f a
  | [], _ => rfl
  | d :: l, a => by
    rw [List.map_cons, List.foldlM_cons, List.foldlM_cons]
    congr 1
    funext a'
    exact foldlM_map_split f g l a'

theorem xmlLine_eol {eol : List Char} (he : eol = [] ∨ eol = ['\r']) {l : List Char} (hl : '\r' ∉ l) (st : DeclState) :
    st.xmlLine (l ++ eol) = st.line l := by
  have hw : without '\r' (l ++ eol) = l := by
    unfold without
    rw [List.filter_append, List.filter_eq_self.2 (by intro c hc; simpa using fun e : c = '\r' => hl (e ▸ hc))]
    rcases he with rfl | rfl <;> simp
  have hs : (splitOnChar ';' (l ++ eol)).map (without '\r') = splitOnChar ';' l := by
    have := splitOnChar_filter (sep := ';') (p := fun c => c ≠ '\r') (by decide) (l := l ++ eol)
    have hw' : (l ++ eol).filter (fun c => c ≠ '\r') = l := hw
    rw [hw'] at this
    exact this.symm
  have hp : "//".toList.isPrefixOf (l ++ eol) = "//".toList.isPrefixOf l := by
    rcases he with rfl | rfl
    · simp
    · show List.isPrefixOf ['/', '/'] (l ++ ['\r']) = List.isPrefixOf ['/', '/'] l
      match l with
      | [] => rfl
      | [c] => by_cases h : '/' = c <;> simp [List.isPrefixOf, h]
      | c :: d :: l => simp [List.isPrefixOf]
  unfold DeclState.xmlLine DeclState.line
  rw [hp]
  by_cases h : l = []
  · subst h
    rcases he with rfl | rfl <;> rfl
  · have h1 : (l ++ eol).isEmpty = l.isEmpty := by
      cases l with
      | nil => exact absurd rfl h
      | cons => rfl
    rw [h1, foldlM_map_split, hs]

theorem xmlDeclarations_eol {eol : List Char} (he : eol = [] ∨ eol = ['\r']) {t : String} (ht : '\r' ∉ t.toList) :
    xmlDeclarations (withEol eol t.toList) = decodeDeclarations t := by
  have hl : ∀ l ∈ splitOnChar '\n' t.toList, '\n' ∉ l ∧ '\r' ∉ l := fun l hl =>
    ⟨(splitOnChar_mem hl).1, fun h => ht ((splitOnChar_mem hl).2 _ h)⟩
  unfold xmlDeclarations decodeDeclarations withEol
  rw [split_lines (by simp [splitOnChar_ne_nil])]
  · have : ∀ (ls : List (List Char)) (st : DeclState), (∀ l ∈ ls, '\n' ∉ l ∧ '\r' ∉ l) →
        (ls.map (· ++ eol)).foldlM DeclState.xmlLine st = ls.foldlM DeclState.line st := by
      intro ls
      induction ls with
      | nil => intro _ _; rfl
      | cons l ls ih =>
        intro st h
        rw [List.map_cons, List.foldlM_cons, List.foldlM_cons, xmlLine_eol he (h l (by simp)).2]
        congr 1
        funext st'
        exact ih st' fun m hm => h m (by simp [hm])
    rw [this _ _ hl]
  · intro l hl'
    obtain ⟨m, hm, rfl⟩ := List.mem_map.1 hl'
    rw [List.mem_append, not_or]
    refine ⟨(hl m hm).1, ?_⟩
    rcases he with rfl | rfl <;> decide

/-! ### Locations and edges -/

theorem location_agrees {initial : String} {x : Xml} {l : RawLocation} (h : XmlLocation initial x l) :
    Agrees (fun l : Location => { l with urgency := "" }) (x.location initial) l.read := by
  have hty : decodeLocType l.ty = .ok (if l.id = initial then .initial else .normal) := by
    rw [h.ty]
    split <;> rfl
  intro b
  unfold Xml.location RawLocation.read decodeInvariant
  rw [h.id, hty, show unwrap (some l.id) = .ok l.id from rfl, ok_bind, Xml.find_eq]
  rcases h.invariant with ⟨e1, e2⟩ | ⟨y, e1, e2, e3⟩
  · rw [e1, e2]
    constructor
    · intro e; cases e; exact ⟨_, rfl, rfl⟩
    · rintro ⟨a, e, rfl⟩; cases e; rfl
  · rw [e1]
    unfold decodeGuard
    rw [if_neg e3]
    dsimp only [List.head?]
    rw [e2]
    cases hp : parseGuard l.invariant with
    | error err =>
      cases err <;> constructor <;> (first | (rintro ⟨a, e, _⟩; cases e; done) | (intro e; cases e; done))
    | ok g =>
      constructor
      · intro e; cases e; exact ⟨_, rfl, rfl⟩
      · rintro ⟨a, e, rfl⟩; cases e; rfl

/-- the labels of this kind -/
abbrev ofKind (k : String) (x : List Xml) : List Xml := x.filter fun l => l.attr "kind" = some k

/-- each kind of labels is read for itself, and the last one counts -/
theorem labels_fold : ∀ (x : List Xml), (∀ l ∈ x, ∃ k, l.attr "kind" = some k) → ∀ s s' : XmlLabels,
    x.foldlM XmlLabels.add s = .ok s' ↔ ∃ gs us, (ofKind "guard" x).mapM (fun l => orPanic (parseGuard l.text)) = .ok gs ∧
      (ofKind "assignment" x).mapM (fun l => orPanic (parseUpdates l.text)) = .ok us ∧
      s' = ⟨gs.getLast?.or s.guard, us.getLast?.or s.update, ((ofKind "synchronisation" x).map Xml.text).getLast?.getD s.sync⟩
  | [], _, s, s' => by
    constructor
    · intro e; cases e; exact ⟨[], [], rfl, rfl, rfl⟩
    · rintro ⟨gs, us, e1, e2, rfl⟩; cases e1; cases e2; rfl
  | l :: x, hk, s, s' => by
    have ih := labels_fold x fun m hm => hk m (List.mem_cons_of_mem _ hm)
    obtain ⟨k, hl⟩ := hk l (by simp)
    have hlast : ∀ {α : Type} (a : α) (l : List α) (o : Option α), (a :: l).getLast?.or o = l.getLast?.or (some a) := by
      intro α a l o
      cases l with
      | nil => rfl
      | cons b l => rw [List.getLast?_cons_cons]; cases h : (b :: l).getLast? with
        | none => simp at h
        | some => rfl
    have hlast' : ∀ {α : Type} (a : α) (l : List α) (o : α), (a :: l).getLast?.getD o = l.getLast?.getD a := by
      intro α a l o
      cases l with
      | nil => rfl
      | cons b l => rw [List.getLast?_cons_cons]; cases h : (b :: l).getLast? with
        | none => simp at h
        | some => rfl
    rw [List.foldlM_cons, show s.add l = (unwrap (l.attr "kind") >>= fun k =>
      if k = "guard" then orPanic (parseGuard l.text) >>= fun g => .ok { s with guard := some g }
      else if k = "synchronisation" then .ok { s with sync := l.text }
      else if k = "assignment" then orPanic (parseUpdates l.text) >>= fun us => .ok { s with update := some us }
      else .ok s) from rfl]
    rw [hl, show unwrap (some k) = .ok k from rfl, ok_bind]
    unfold ofKind at ih ⊢
    by_cases h1 : k = "guard"
    · subst h1
      rw [if_pos rfl, List.filter_cons_of_pos (by simp [hl]), List.filter_cons_of_neg (by simp [hl]),
        List.filter_cons_of_neg (by simp [hl]), List.mapM_cons]
      cases hp : orPanic (parseGuard l.text) with
      | error e =>
        rw [error_bind, error_bind, error_bind]
        constructor
        · intro e; cases e
        · rintro ⟨_, _, e, _⟩; cases e
      | ok g =>
        rw [ok_bind, ok_bind, ok_bind, ih]
        constructor
        · rintro ⟨gs, us, e1, e2, rfl⟩
          exact ⟨g :: gs, us, by rw [e1]; rfl, e2, by rw [hlast]⟩
        · rintro ⟨gs, us, e1, e2, rfl⟩
          obtain ⟨gs', e3, e⟩ := bind_ok e1
          cases e
          exact ⟨gs', us, e3, e2, by rw [hlast]⟩
    · rw [if_neg h1]
      by_cases h2 : k = "synchronisation"
      · subst h2
        rw [if_pos rfl, List.filter_cons_of_neg (by simp [hl]), List.filter_cons_of_neg (by simp [hl]),
          List.filter_cons_of_pos (by simp [hl]), ok_bind, ih, List.map_cons, hlast']
      · rw [if_neg h2]
        by_cases h3 : k = "assignment"
        · subst h3
          rw [if_pos rfl, List.filter_cons_of_neg (by simp [hl]), List.filter_cons_of_pos (by simp [hl]),
            List.filter_cons_of_neg (by simp [hl]), List.mapM_cons]
          cases hp : orPanic (parseUpdates l.text) with
          | error e =>
            rw [error_bind, error_bind, error_bind]
            constructor
            · intro e; cases e
            · rintro ⟨_, _, _, e, _⟩; cases e
          | ok u =>
            rw [ok_bind, ok_bind, ok_bind, ih]
            constructor
            · rintro ⟨gs, us, e1, e2, rfl⟩
              exact ⟨gs, u :: us, e1, by rw [e2]; rfl, by rw [hlast]⟩
            · rintro ⟨gs, us, e1, e2, rfl⟩
              obtain ⟨us', e3, e⟩ := bind_ok e2
              cases e
              exact ⟨gs, us', e1, e3, by rw [hlast]⟩
        · rw [if_neg h3, List.filter_cons_of_neg (by simp [hl, h1]), List.filter_cons_of_neg (by simp [hl, h3]),
            List.filter_cons_of_neg (by simp [hl, h2]), ok_bind, ih]

theorem labelText_read {α : Type} {f : List Char → Res α} {ls : List Xml} {t : List Char} (h : LabelText ls t) (o : Option α) :
    (∃ as, ls.mapM (fun l => orPanic (f l.text)) = .ok as ∧ o = as.getLast?) ↔
      (if t = [] then (.ok none : Res (Option α)) else f t >>= fun a => .ok (some a)) = .ok o := by
  rcases h with ⟨rfl, rfl⟩ | ⟨l, rfl, rfl, h⟩
  · constructor
    · rintro ⟨as, e, rfl⟩; cases e; rfl
    · intro e; cases e; exact ⟨[], rfl, rfl⟩
  · rw [if_neg h, List.mapM_cons]
    cases hf : f l.text with
    | error e =>
      constructor
      · rintro ⟨as, e', _⟩
        cases e <;> cases e'
      · intro e'; cases e'
    | ok a =>
      constructor
      · rintro ⟨as, e, rfl⟩; cases e; rfl
      · intro e; cases e; exact ⟨[a], rfl, rfl⟩

theorem decodeSync_plain {s : String} (h : '?' ∉ s.toList ∧ '!' ∉ s.toList) : decodeSync s = s := by
  unfold decodeSync
  rw [if_neg (by simpa using h.2), if_neg (by simpa using h.1)]

theorem edge_agrees {x : Xml} {e : RawEdge} (h : XmlEdge x e) :
    Agrees (fun e : Edge => { e with id := "NotImplemented" }) x.edge e.read := by
  obtain ⟨ys, hs1, hs2⟩ := h.source
  obtain ⟨yt, ht1, ht2⟩ := h.target
  obtain ⟨sl, hl1, hl2⟩ := h.sync
  have hfold := labels_fold (x.findAll "label") h.kinds ⟨none, none, []⟩
  have hg := fun o => labelText_read (f := parseGuard) h.guard o
  have hu := fun o => labelText_read (f := parseUpdates) h.update o
  have hsync : decodeSyncType e.status = .ok (if sl.text.contains '?' then .input else .output) := by
    rw [hl2]
    rcases h.status with hst | hst
    · rw [hst]; simp; rfl
    · rw [hst]
      have : (e.sync.toList ++ [if "OUTPUT" = "INPUT" then '?' else '!']).contains '?' = false := by
        simpa using h.action.1
      rw [this]; rfl
  have hact : String.ofList (sl.text.filter fun c => c ≠ '!' && c ≠ '?') = e.sync := by
    rw [hl2, List.filter_append, List.filter_eq_self.2, List.filter_cons_of_neg]
    · simp
    · split <;> simp
    · intro c hc
      have h1 : c ≠ '!' := fun e' => h.action.2 (e' ▸ hc)
      have h2 : c ≠ '?' := fun e' => h.action.1 (e' ▸ hc)
      simp [h1, h2]
  have hkind : (ofKind "synchronisation" (x.findAll "label")) = [sl] := hl1
  intro b
  unfold Xml.edge RawEdge.read
  rw [hs1, ht1, show unwrap (some ys) = .ok ys from rfl, show unwrap (some yt) = .ok yt from rfl, ok_bind, ok_bind, hs2, ht2,
    show unwrap (some e.source) = .ok e.source from rfl, show unwrap (some e.target) = .ok e.target from rfl, hsync,
    decodeSync_plain h.action]
  constructor
  · intro e'
    obtain ⟨s, h1, e'⟩ := bind_ok e'
    cases e'
    obtain ⟨gs, us, e1, e2, rfl⟩ := (hfold s).1 h1
    have h3 := (hg gs.getLast?).1 ⟨gs, e1, rfl⟩
    have h4 := (hu us.getLast?).1 ⟨us, e2, rfl⟩
    unfold decodeGuard decodeUpdates
    refine ⟨⟨e.id, e.source, e.target, if sl.text.contains '?' then .input else .output, gs.getLast?, us.getLast?, e.sync⟩, ?_, ?_⟩
    · rw [ok_bind]
      have h3' : (if e.guard = [] then (.ok none : Res (Option BoolE)) else do .ok (some (← parseGuard e.guard))) = .ok gs.getLast? := h3
      have h4' : (if e.update = [] then (.ok none : Res (Option (List Update))) else do .ok (some (← parseUpdates e.update))) =
        .ok us.getLast? := h4
      rw [h3', h4']
      rfl
    · rw [hkind]
      simp only [List.map_cons, List.map_nil, List.getLast?_singleton, Option.getD_some, Option.or_none, hact]
  · rintro ⟨a, e', rfl⟩
    rw [ok_bind] at e'
    obtain ⟨g, h3, e'⟩ := bind_ok e'
    obtain ⟨u, h4, e'⟩ := bind_ok e'
    cases e'
    obtain ⟨gs, e1, rfl⟩ := (hg g).2 h3
    obtain ⟨us, e2, rfl⟩ := (hu u).2 h4
    rw [(hfold _).2 ⟨gs, us, e1, e2, rfl⟩, ok_bind, ok_bind, ok_bind, hkind]
    simp only [List.map_cons, List.map_nil, List.getLast?_singleton, Option.getD_some, Option.or_none, hact]

/-- **C67 (components).** The XML element can be read exactly if the JSON object can, and the components are the same but for the
names of edges and urgencies. -/
theorem C67_component {x : Xml} {raw : RawComponent} (h : XmlTemplate x raw) (c : Component) :
    x.component = .ok c ↔ ∃ c0, raw.read = .ok c0 ∧ c = c0.unnamed := by
  obtain ⟨yn, hn1, hn2⟩ := h.name
  obtain ⟨yi, initial, hi1, hi2, hl⟩ := h.locations
  have hd : xmlDeclarations x.declarations = decodeDeclarations raw.declarations := by
    unfold Xml.declarations
    obtain ⟨h1, h2⟩ := h.declarations
    rcases h2 with ⟨h2, h3⟩ | ⟨y, eol, h2, h3, h4⟩
    · rw [h2, h3]; rfl
    · rw [h2]
      dsimp only
      rw [h4, xmlDeclarations_eol h3 h1]
  have ha := Agrees.mapM (fun x y hxy => edge_agrees hxy) h.edges
  have hb := Agrees.mapM (fun x y hxy => location_agrees hxy) hl
  unfold Xml.component RawComponent.read
  rw [hd, hn1, hi1, show unwrap (some yn) = .ok yn from rfl, show unwrap (some yi) = .ok yi from rfl]
  constructor
  · intro e
    obtain ⟨d, e1, e⟩ := bind_ok e
    obtain ⟨es, e2, e⟩ := bind_ok e
    rw [ok_bind, ok_bind, hi2, show unwrap (some initial) = .ok initial from rfl, ok_bind] at e
    obtain ⟨ls, e3, e⟩ := bind_ok e
    cases e
    obtain ⟨es0, f2, rfl⟩ := (ha es).1 e2
    obtain ⟨ls0, f3, rfl⟩ := (hb ls).1 e3
    refine ⟨⟨raw.name, d, ls0, es0⟩, by rw [e1, f2, f3]; rfl, ?_⟩
    rw [hn2, String.ofList_toList]
    rfl
  · rintro ⟨c0, e, rfl⟩
    obtain ⟨d, e1, e⟩ := bind_ok e
    obtain ⟨ls0, f3, e⟩ := bind_ok e
    obtain ⟨es0, f2, e⟩ := bind_ok e
    cases e
    rw [e1, (ha _).2 ⟨es0, f2, rfl⟩, ok_bind, ok_bind, ok_bind, ok_bind, hi2, show unwrap (some initial) = .ok initial from rfl, ok_bind,
      (hb _).2 ⟨ls0, f3, rfl⟩, hn2, String.ofList_toList]
    rfl

/-! ## Names of edges do not matter -/

section Names
variable {F : Type} [ZoneLib F]

theorem locationByName_unnamed (c : Component) (n : String) :
    c.unnamed.locationByName n = (c.locationByName n).map fun l => { l with urgency := "" } := by
  unfold Component.locationByName Component.unnamed
  dsimp only
  rw [List.filter_map]
  have : ((fun l : Location => decide (l.id = n)) ∘ fun l : Location => { l with urgency := "" }) = fun l => decide (l.id = n) := rfl
  rw [this]
  generalize (c.locations.filter fun l => l.id = n) = ls
  match ls with
  | [] => rfl
  | [l] => rfl
  | _ :: _ :: _ => rfl

/-- without the names of transitions -/
def Transition.nameless (t : Transition F) : Transition F := { t with id := .simple "NotImplemented" }

def namelessEdges (m : List (LocId × List (String × Transition F))) : List (LocId × List (String × Transition F)) :=
  m.map fun p => (p.1, p.2.map fun q => (q.1, q.2.nameless))

def CompComp.nameless (x : CompComp F) : CompComp F := { x with edges := namelessEdges x.edges }

theorem map_bind {α β γ : Type} (x : Res α) (f : α → β) (g : β → Res γ) : (x.map f >>= g) = (x >>= fun a => g (f a)) := by
  cases x <;> rfl

theorem bind_map {α β γ : Type} (x : Res α) (f : α → Res β) (g : β → γ) : (x >>= f).map g = (x >>= fun a => (f a).map g) := by
  cases x <;> rfl

theorem fromEdge_unnamed (c : Component) (e : Edge) : (Transition.fromEdge c.unnamed { e with id := "NotImplemented" } : Res (Transition F)) =
    (Transition.fromEdge c e).map Transition.nameless := by
  unfold Transition.fromEdge
  rw [locationByName_unnamed, map_bind, bind_map]
  congr 1
  funext l
  rw [bind_map]
  show (LocTree.simple c.decls l >>= _) = _
  congr 1
  funext target
  rw [bind_map]
  show (e.compileUpdates c.decls >>= _) = _
  congr 1
  funext us
  rw [bind_map]
  rfl

omit [ZoneLib F] in
theorem pushEdge_nameless (id : LocId) (a : String) (t : Transition F) : ∀ m : List (LocId × List (String × Transition F)),
    CompComp.pushEdge id (a, t.nameless) (namelessEdges m) = (CompComp.pushEdge id (a, t) m).map namelessEdges
  | [] => rfl
  | (k, es) :: m => by
    show CompComp.pushEdge id (a, t.nameless) ((k, _) :: namelessEdges m) = _
    unfold CompComp.pushEdge
    split
    · simp [Except.map, namelessEdges]
    · rw [pushEdge_nameless id a t m, map_bind, bind_map]
      rfl

theorem buildEdges_unnamed (c : Component) : ∀ (es : List Edge) (m : List (LocId × List (String × Transition F))),
    CompComp.buildEdges c.unnamed (es.map fun e => { e with id := "NotImplemented" }) (namelessEdges m) =
      (CompComp.buildEdges c es m).map namelessEdges
  | [], m => rfl
  | e :: es, m => by
    rw [List.map_cons]
    unfold CompComp.buildEdges
    rw [fromEdge_unnamed, map_bind, bind_map]
    congr 1
    funext t
    rw [pushEdge_nameless, map_bind, bind_map]
    congr 1
    funext m'
    exact buildEdges_unnamed c es m'

theorem mapM_map_same {α β : Type} {f : α → Res β} {g : α → α} (h : ∀ a, f (g a) = f a) : ∀ l : List α, (l.map g).mapM f = l.mapM f
  | [] => rfl
  | a :: l => by rw [List.map_cons, List.mapM_cons, List.mapM_cons, h, mapM_map_same h l]

theorem maxBounds_unnamed (c : Component) : c.unnamed.maxBounds = c.maxBounds := by
  have : ∀ n i, c.unnamed.clockBound n i = c.clockBound n i := by
    intro n i
    unfold Component.clockBound Component.unnamed
    dsimp only
    rw [List.filterMap_map, List.filterMap_map]
    rfl
  unfold Component.maxBounds
  simp only [this]
  rfl

theorem compileWith_unnamed (order : List (LocId × LocTree F) → List (LocId × LocTree F)) (c : Component) (ins outs : List String)
    (id : Nat) : CompComp.compileWith order c.unnamed ins outs id = (CompComp.compileWith order c ins outs id).map CompComp.nameless := by
  unfold CompComp.compileWith
  split
  · rfl
  · have h1 : (CompComp.buildLocations c.unnamed.decls c.unnamed.locations : Res (List (LocId × LocTree F))) =
        CompComp.buildLocations c.decls c.locations := by
      unfold CompComp.buildLocations Component.unnamed
      dsimp only
      rw [mapM_map_same (g := fun l : Location => { l with urgency := "" }) fun _ => rfl]
    rw [h1, bind_map]
    congr 1
    funext locs
    dsimp only
    have h2 : ((order locs).map fun p => (p.1, ([] : List (String × Transition F)))) =
        namelessEdges ((order locs).map fun p => (p.1, [])) := by
      unfold namelessEdges
      rw [List.map_map]
      rfl
    rw [h2, show c.unnamed.edges = c.edges.map fun e => { e with id := "NotImplemented" } from rfl, buildEdges_unnamed, map_bind, bind_map,
      ← h2, maxBounds_unnamed]
    rfl

theorem specificActions_unnamed (c : Component) (s : SyncType) : c.unnamed.specificActions s = c.specificActions s := by
  unfold Component.specificActions Component.unnamed
  dsimp only
  rw [List.filter_map, List.map_map]
  rfl

theorem compile_unnamed (order : List (LocId × LocTree F) → List (LocId × LocTree F)) (c : Component) (id : Nat) :
    CompComp.compile order c.unnamed id = (CompComp.compile order c id).map CompComp.nameless := by
  unfold CompComp.compile
  rw [specificActions_unnamed, specificActions_unnamed, compileWith_unnamed]

theorem nameless_next (x : CompComp F) (l : LocTree F) (a : String) :
    (x.nameless.next l a = x.next l a) ∨ x.nameless.next l a = (x.next l a).map (List.map Transition.nameless) := by
  have : x.nameless.edges.lookup l.id = (x.edges.lookup l.id).map (List.map fun q => (q.1, q.2.nameless)) := by
    show (namelessEdges x.edges).lookup l.id = _
    induction x.edges with
    | nil => rfl
    | cons p m ih =>
      obtain ⟨k, es⟩ := p
      show List.lookup l.id ((k, _) :: namelessEdges m) = _
      rw [List.lookup_cons, List.lookup_cons]
      split
      · rfl
      · exact ih
  unfold CompComp.next
  rw [this, show x.nameless.inputs = x.inputs from rfl, show x.nameless.outputs = x.outputs from rfl]
  by_cases h1 : (!(x.inputs.contains a || x.outputs.contains a)) = true
  · rw [if_pos h1, if_pos h1]
    exact .inl rfl
  · rw [if_neg h1, if_neg h1]
    by_cases h2 : l.isUniversal = true
    · rw [if_pos h2, if_pos h2]
      exact .inl rfl
    · rw [if_neg h2, if_neg h2]
      by_cases h3 : (l.isInconsistent && x.inputs.contains a) = true
      · rw [if_pos h3, if_pos h3]
        exact .inl rfl
      · rw [if_neg h3, if_neg h3]
        right
        cases x.edges.lookup l.id with
        | none => rfl
        | some es =>
          show Except.ok _ = Except.ok _
          rw [List.filter_map, List.map_map, List.map_map]
          rfl

theorem nameless_steps (x : CompComp F) : (Sys.comp x).ts.SameSteps (Sys.comp x.nameless).ts where
  initial := rfl
  steps l v a l' v' := by
    show (_ ∧ ∃ trans, x.next l a = .ok trans ∧ _) ↔ (_ ∧ ∃ trans, x.nameless.next l a = .ok trans ∧ _)
    refine and_congr Iff.rfl ?_
    rcases nameless_next x l a with h | h
    · rw [h]
    · rw [h]
      constructor
      · rintro ⟨ts, h1, t, h2, h3, rfl, rfl⟩
        rw [h1]
        exact ⟨_, rfl, t.nameless, List.mem_map_of_mem h2, h3, rfl, rfl⟩
      · rintro ⟨ts, h1, t, h2, h3, rfl, rfl⟩
        cases hx : x.next l a with
        | error e => rw [hx] at h1; cases h1
        | ok ts0 =>
          rw [hx] at h1
          cases h1
          obtain ⟨t0, h4, rfl⟩ := List.mem_map.1 h2
          exact ⟨ts0, rfl, t0, h4, h3, rfl, rfl⟩

/-- **C67 (names of edges).** Components that are the same but for the names of edges and urgencies can both be compiled or not, and
take the same steps. -/
theorem C67_names {c c' : Component} (h : c.unnamed = c'.unnamed) (order : List (LocId × LocTree F) → List (LocId × LocTree F)) (id : Nat) :
    (∀ x : CompComp F, CompComp.compile order c id = .ok x → ∃ x', CompComp.compile order c' id = .ok x' ∧
      x'.inputs = x.inputs ∧ x'.outputs = x.outputs ∧ (Sys.comp x).ts.SameSteps (Sys.comp x').ts) := by
  intro x hx
  have h1 := compile_unnamed order c id
  have h2 := compile_unnamed order c' id
  rw [h, h2, hx] at h1
  cases hx' : CompComp.compile order c' id with
  | error e => rw [hx'] at h1; cases h1
  | ok x' =>
    rw [hx'] at h1
    injection h1 with h1
    refine ⟨x', rfl, show x'.nameless.inputs = x.nameless.inputs from congrArg _ h1,
      show x'.nameless.outputs = x.nameless.outputs from congrArg _ h1, ?_⟩
    have h3 := nameless_steps x
    have h4 := nameless_steps x'
    rw [h1] at h4
    exact ⟨h3.initial.trans h4.initial.symm, fun l v a l' v' => (h3.steps ..).trans (h4.steps ..).symm⟩

/-! ## Input enabling -/

theorem edgeZone_unnamed (c : Component) (e : Edge) : edgeZone F c.unnamed { e with id := "NotImplemented" } = edgeZone F c e := by
  unfold edgeZone
  rw [locationByName_unnamed, map_bind]
  rfl

theorem missingEdge_unnamed (c : Component) (l : Location) (inv : F) (a : String) :
    missingEdge F c.unnamed { l with urgency := "" } inv a = missingEdge F c l inv a := by
  unfold missingEdge
  dsimp only
  rw [show c.unnamed.edges = c.edges.map fun e => { e with id := "NotImplemented" } from rfl, List.filter_map]
  congr 1
  rw [List.foldlM_map]
  congr 1
  funext fed e
  rw [edgeZone_unnamed]

/-- the edges that input enabling adds -/
def addedEdges (F : Type) [ZoneLib F] (c : Component) (ins : List String) : Res (List (List Edge)) :=
  c.locations.mapM fun l => do
    let inv ← invZone F c l
    let es ← ins.mapM (missingEdge F c l inv)
    .ok (es.filterMap id)

theorem addedEdges_unnamed (c : Component) (ins : List String) : addedEdges F c.unnamed ins = addedEdges F c ins := by
  unfold addedEdges
  rw [show c.unnamed.locations = c.locations.map fun l => { l with urgency := "" } from rfl, List.mapM_map]
  congr 1
  funext l
  show (invZone F c l >>= _) = _
  congr 1
  funext inv
  have : missingEdge F c.unnamed { l with urgency := "" } inv = missingEdge F c l inv := funext fun a => missingEdge_unnamed c l inv a
  rw [this]

/-- Input enabling adds the same edges, with the same names. -/
theorem enabled_unnamed (c : Component) (ins : List String) : makeInputEnabled F c.unnamed ins =
    addedEdges F c ins >>= fun new => .ok { c.unnamed with edges := c.unnamed.edges ++ new.flatten } := by
  rw [← addedEdges_unnamed]
  rfl

theorem enabled_same (c : Component) (ins : List String) (u : Component) :
    (∃ cx, makeInputEnabled F c.unnamed ins = .ok cx ∧ cx.unnamed = u) ↔ ∃ cj, makeInputEnabled F c ins = .ok cj ∧ cj.unnamed = u := by
  have h1 : makeInputEnabled F c ins = addedEdges F c ins >>= fun new => .ok { c with edges := c.edges ++ new.flatten } := rfl
  rw [enabled_unnamed, h1]
  cases addedEdges F c ins with
  | error e =>
    constructor
    · rintro ⟨_, h, _⟩; cases h
    · rintro ⟨_, h, _⟩; cases h
  | ok new =>
    have h2 : ({ c.unnamed with edges := c.unnamed.edges ++ new.flatten } : Component).unnamed =
        ({ c with edges := c.edges ++ new.flatten } : Component).unnamed := by
      unfold Component.unnamed
      simp [Function.comp_def]
    constructor
    · rintro ⟨_, h, rfl⟩
      cases h
      exact ⟨_, rfl, h2.symm⟩
    · rintro ⟨_, h, rfl⟩
      cases h
      exact ⟨_, rfl, h2⟩

theorem unnamed_twice (c : Component) : c.unnamed.unnamed = c.unnamed := by
  unfold Component.unnamed
  simp [Function.comp_def]

end Names

/-! ## Projects -/

section Projects
variable {Z : Nat → Type} [∀ d, ZoneLib (Z d)]

/-- a component made to accept its declared inputs -/
def enabledFor (Z : Nat → Type) [∀ d, ZoneLib (Z d)] (inputs : String → Option (List String)) (c : Component) : Res Component :=
  match inputs c.name with
  | some ins => makeInputEnabled (Z c.decls.clocks.length) c ins
  | none => .ok c

theorem enabledFor_same (inputs : String → Option (List String)) (c u : Component) :
    (∃ cx, enabledFor Z inputs c.unnamed = .ok cx ∧ cx.unnamed = u) ↔ ∃ cj, enabledFor Z inputs c = .ok cj ∧ cj.unnamed = u := by
  unfold enabledFor
  rw [show c.unnamed.name = c.name from rfl]
  cases inputs c.name with
  | some ins => exact enabled_same c ins u
  | none =>
    constructor
    · rintro ⟨_, h, rfl⟩; cases h; exact ⟨_, rfl, (unnamed_twice c).symm⟩
    · rintro ⟨_, h, rfl⟩; cases h; exact ⟨_, rfl, unnamed_twice c⟩

theorem enabledFor_name {inputs : String → Option (List String)} {c c' : Component} (h : enabledFor Z inputs c = .ok c') :
    c'.name = c.name := by
  unfold enabledFor at h
  split at h
  · exact enabled_name h
  · cases h; rfl

theorem openXml_fold (spec : SystemSpec) : ∀ (cs : List Component) (m0 m : List (String × Component)),
    cs.foldlM (fun m c => do
      let c ← match spec.inputsOf c.name with
        | some inputs => makeInputEnabled (Z c.decls.clocks.length) c inputs
        | none => .ok c
      .ok (hmInsert c.name c m)) m0 = .ok m ↔
      ∃ es, cs.mapM (enabledFor Z spec.inputsOf) = .ok es ∧ m = es.foldl (fun m c => hmInsert c.name c m) m0
  | [], m0, m => by
    constructor
    · intro h; cases h; exact ⟨[], rfl, rfl⟩
    · rintro ⟨es, h, rfl⟩; cases h; rfl
  | c :: cs, m0, m => by
    rw [List.foldlM_cons, List.mapM_cons]
    have hh : (do
        let c ← match spec.inputsOf c.name with
          | some inputs => makeInputEnabled (Z c.decls.clocks.length) c inputs
          | none => .ok c
        .ok (hmInsert c.name c m0) : Res (List (String × Component))) =
        enabledFor Z spec.inputsOf c >>= fun c => .ok (hmInsert c.name c m0) := by
      unfold enabledFor
      cases spec.inputsOf c.name <;> rfl
    rw [hh]
    cases enabledFor Z spec.inputsOf c with
    | error e =>
      constructor
      · intro h; cases h
      · rintro ⟨_, h, _⟩; cases h
    | ok c' =>
      rw [ok_bind, ok_bind, ok_bind, openXml_fold spec cs]
      constructor
      · rintro ⟨es, h, rfl⟩
        exact ⟨c' :: es, by rw [h]; rfl, rfl⟩
      · rintro ⟨es, h, rfl⟩
        obtain ⟨es', h1, h⟩ := bind_ok h
        cases h
        exact ⟨es', h1, rfl⟩

theorem lookup_inserted (n : String) (c : Component) : ∀ (es : List Component) (m : List (String × Component)),
    (es.map (·.name)).Nodup → (∀ e ∈ es, m.lookup e.name = none) →
    ((es.foldl (fun m c => hmInsert c.name c m) m).lookup n = some c ↔ (c ∈ es ∧ c.name = n) ∨ m.lookup n = some c)
  | [], m, _, _ => by simp
  | e :: es, m, hn, hm => by
    rw [List.map_cons, List.nodup_cons] at hn
    rw [List.foldl_cons, lookup_inserted n c es _ hn.2, lookup_hmInsert]
    · by_cases h : n = e.name
      · subst h
        rw [if_pos rfl, hm e (by simp)]
        constructor
        · rintro (⟨h1, h2⟩ | h1)
          · exact .inl ⟨by simp [h1], h2⟩
          · cases h1; exact .inl ⟨by simp, rfl⟩
        · rintro (⟨h1, h2⟩ | h1)
          · rcases List.mem_cons.1 h1 with rfl | h1
            · exact .inr rfl
            · exact absurd (List.mem_map.2 ⟨c, h1, h2⟩) hn.1
          · cases h1
      · rw [if_neg h]
        constructor
        · rintro (⟨h1, h2⟩ | h1)
          · exact .inl ⟨by simp [h1], h2⟩
          · exact .inr h1
        · rintro (⟨h1, h2⟩ | h1)
          · rcases List.mem_cons.1 h1 with rfl | h1
            · exact absurd h2.symm h
            · exact .inl ⟨h1, h2⟩
          · exact .inr h1
    · intro f hf
      rw [lookup_hmInsert, if_neg]
      · exact hm f (by simp [hf])
      · intro e'
        exact hn.1 (List.mem_map.2 ⟨f, hf, e'⟩)

theorem xml_view (m : List (String × Component)) (n : String) (c : Component) :
    xmlLoader.view m n = .ok c ↔ m.lookup n = some c ∧ c.name = n := by
  show ((namedEntry m n >>= fun c => .ok (c, m)).map (·.1)) = .ok c ↔ _
  unfold namedEntry
  cases h : m.lookup n with
  | none => constructor <;> intro h' <;> simp_all [Except.map]
  | some c' =>
    dsimp only
    by_cases hn : n = c'.name
    · rw [if_pos hn]
      constructor
      · intro h'; cases h'; exact ⟨rfl, hn.symm⟩
      · rintro ⟨h', _⟩; cases h'; rfl
    · rw [if_neg hn]
      constructor
      · intro h'; cases h'
      · rintro ⟨h', h2⟩; cases h'; exact absurd h2.symm hn

theorem mapM_all_ok {α β : Type} {f : α → Res β} : ∀ {l : List α}, (∃ bs, l.mapM f = .ok bs) ↔ ∀ a ∈ l, ∃ b, f a = .ok b
  | [] => by simp [pure, Except.pure]
  | a :: l => by
    rw [List.mapM_cons]
    constructor
    · rintro ⟨bs, h⟩
      obtain ⟨b, h1, h⟩ := bind_ok h
      obtain ⟨bs', h2, h⟩ := bind_ok h
      intro x hx
      rcases List.mem_cons.1 hx with rfl | hx
      · exact ⟨b, h1⟩
      · exact mapM_all_ok.1 ⟨bs', h2⟩ x hx
    · intro h
      obtain ⟨b, h1⟩ := h a (by simp)
      obtain ⟨bs, h2⟩ := mapM_all_ok.2 fun x hx => h x (List.mem_cons_of_mem _ hx)
      exact ⟨b :: bs, by rw [h1, h2]; rfl⟩

theorem mapM_mem_iff {α β : Type} {f : α → Res β} : ∀ {l : List α} {bs : List β}, l.mapM f = .ok bs → ∀ b, b ∈ bs ↔ ∃ a ∈ l, f a = .ok b
  | [], bs, h, b => by cases h; simp
  | a :: l, bs, h, b => by
    rw [List.mapM_cons] at h
    obtain ⟨b', h1, h⟩ := bind_ok h
    obtain ⟨bs', h2, h3⟩ := bind_ok h
    cases h3
    rw [List.mem_cons, mapM_mem_iff h2]
    constructor
    · rintro (rfl | ⟨x, hx, h4⟩)
      · exact ⟨a, by simp, h1⟩
      · exact ⟨x, by simp [hx], h4⟩
    · rintro ⟨x, hx, h4⟩
      rcases List.mem_cons.1 hx with rfl | hx
      · rw [h1] at h4; cases h4; exact .inl rfl
      · exact .inr ⟨x, hx, h4⟩

theorem raw_name {raw : RawComponent} {c : Component} (h : raw.read = .ok c) : c.name = raw.name := by
  unfold RawComponent.read at h
  obtain ⟨_, _, h⟩ := bind_ok h
  obtain ⟨_, _, h⟩ := bind_ok h
  obtain ⟨_, _, h⟩ := bind_ok h
  cases h
  rfl

/-- the files of a folder with these components -/
def filesOf (cs : List RawComponent) (name : String) : Option RawComponent := cs.find? fun c => c.name = name

theorem filesOf_iff {cs : List RawComponent} (h : (cs.map (·.name)).Nodup) {n : String} {c : RawComponent} :
    filesOf cs n = some c ↔ c ∈ cs ∧ c.name = n := by
  unfold filesOf
  constructor
  · intro h1
    exact ⟨List.mem_of_find?_eq_some h1, by simpa using List.find?_some h1⟩
  · rintro ⟨h1, h2⟩
    cases h3 : cs.find? fun c => c.name = n with
    | none =>
      rw [List.find?_eq_none] at h3
      exact absurd h2 (by simpa using h3 c h1)
    | some d =>
      have h4 := List.mem_of_find?_eq_some h3
      have h5 : d.name = n := by simpa using List.find?_some h3
      rw [List.inj_on_of_nodup_map h h1 h4 (h2.trans h5.symm)]

/-- **C67 (projects).** An XML file and a folder of JSON files with the same components and the same system declarations are the
same project: the file can be opened exactly if all components of the folder can be loaded, and the components found under a
name are then the same, but for the names of edges. -/
theorem C67_project_partial {x : Xml} {cs : List RawComponent} {t : SystemText} (h : XmlProject x cs t) {P : Project}
    (hP : openProject (filesOf cs) (t.text []) = .ok P) :
    ((∃ m, x.openProject Z = .ok m) ↔ ∀ raw ∈ cs, ∃ c, (jsonLoader Z).view P raw.name = .ok c) ∧
    ∀ m, x.openProject Z = .ok m → ∀ name u,
      (∃ cx, xmlLoader.view m name = .ok cx ∧ cx.unnamed = u) ↔ ∃ cj, (jsonLoader Z).view P name = .ok cj ∧ cj.unnamed = u := by
  -- the JSON project
  obtain ⟨P', h1, hj⟩ := C66_project_partial (Z := Z) (filesOf cs) h.proper
  rw [hP] at h1
  cases h1
  have hj : ∀ name c, (jsonLoader Z).view P name = .ok c ↔ ∃ raw ∈ cs, ∃ c0, raw.read = .ok c0 ∧ c0.name = name ∧
      enabledFor Z (declaredInputs t.lines) c0 = .ok c := by
    intro name c
    rw [hj]
    unfold InProject enabledFor
    constructor
    · rintro ⟨raw, c0, e1, e2, rfl, e3⟩
      refine ⟨raw, ((filesOf_iff h.names).1 e1).1, c0, e2, rfl, ?_⟩
      split
      · rename_i h4; rw [h4] at e3; exact e3
      · rename_i h4; rw [h4] at e3; rw [e3]
    · rintro ⟨raw, hr, c0, e2, rfl, e3⟩
      refine ⟨raw, c0, (filesOf_iff h.names).2 ⟨hr, (raw_name e2).symm⟩, e2, rfl, ?_⟩
      split
      · rename_i h4; rw [h4] at e3; exact e3
      · rename_i h4; rw [h4] at e3; cases e3; rfl
  -- the XML project
  obtain ⟨y, eol, hs1, hs2, hs3⟩ := h.system
  obtain ⟨spec, d1, _, d3⟩ := C66_xml_partial h.proper hs2
  have hin : spec.inputsOf = declaredInputs t.lines := funext fun k => (d3 k).1
  have hag := Agrees.mapM (R := XmlTemplate) (fun x y hxy c => C67_component hxy c) h.components
  have hx : ∀ m, x.openProject Z = .ok m ↔ ∃ cs0 es, cs.mapM RawComponent.read = .ok cs0 ∧
      (cs0.map Component.unnamed).mapM (enabledFor Z (declaredInputs t.lines)) = .ok es ∧
      m = es.foldl (fun m c => hmInsert c.name c m) [] := by
    intro m
    unfold Xml.openProject Xml.project
    rw [hs1, show unwrap (some y) = .ok y from rfl, ok_bind, hs3, d1]
    constructor
    · intro e
      obtain ⟨p, e1, e⟩ := bind_ok e
      obtain ⟨cx, e2, e1⟩ := bind_ok e1
      rw [ok_bind] at e1
      cases e1
      obtain ⟨cs0, e3, rfl⟩ := (hag cx).1 e2
      unfold openXml at e
      obtain ⟨es, e4, e5⟩ := (openXml_fold spec _ _ _).1 e
      rw [hin] at e4
      exact ⟨cs0, es, e3, e4, e5⟩
    · rintro ⟨cs0, es, e3, e4, e5⟩
      rw [(hag _).2 ⟨cs0, e3, rfl⟩, ok_bind, ok_bind, ok_bind]
      show openXml Z _ _ = _
      unfold openXml
      rw [← hin] at e4
      exact (openXml_fold spec _ _ _).2 ⟨es, e4, e5⟩
  constructor
  · constructor
    · rintro ⟨m, hm⟩ raw hr
      obtain ⟨cs0, es, e3, e4, _⟩ := (hx m).1 hm
      obtain ⟨c0, h5⟩ := mapM_all_ok.1 ⟨cs0, e3⟩ raw hr
      obtain ⟨cx, h6⟩ := mapM_all_ok.1 ⟨es, e4⟩ c0.unnamed (List.mem_map_of_mem ((mapM_mem_iff e3 c0).2 ⟨raw, hr, h5⟩))
      obtain ⟨cj, h7, _⟩ := (enabledFor_same _ c0 cx.unnamed).1 ⟨cx, h6, rfl⟩
      exact ⟨cj, (hj _ _).2 ⟨raw, hr, c0, h5, raw_name h5, h7⟩⟩
    · intro hall
      have hread : ∀ raw ∈ cs, ∃ c0, raw.read = .ok c0 ∧ ∃ c, enabledFor Z (declaredInputs t.lines) c0 = .ok c := by
        intro raw hr
        obtain ⟨c, hc⟩ := hall raw hr
        obtain ⟨raw', hr', c0, h5, h6, h7⟩ := (hj _ _).1 hc
        have : raw' = raw := List.inj_on_of_nodup_map h.names hr' hr ((raw_name h5).symm.trans h6)
        subst this
        exact ⟨c0, h5, c, h7⟩
      obtain ⟨cs0, e3⟩ := mapM_all_ok.2 fun raw hr => (hread raw hr).imp fun _ h => h.1
      obtain ⟨es, e4⟩ : ∃ es, (cs0.map Component.unnamed).mapM (enabledFor Z (declaredInputs t.lines)) = .ok es := by
        refine mapM_all_ok.2 fun c hc => ?_
        obtain ⟨c0, h5, rfl⟩ := List.mem_map.1 hc
        obtain ⟨raw, hr, h6⟩ := (mapM_mem_iff e3 c0).1 h5
        obtain ⟨c0', h7, cj, h8⟩ := hread raw hr
        rw [h6] at h7
        cases h7
        obtain ⟨cx, h9, _⟩ := (enabledFor_same _ c0 cj.unnamed).2 ⟨cj, h8, rfl⟩
        exact ⟨cx, h9⟩
      exact ⟨_, (hx _).2 ⟨cs0, es, e3, e4, rfl⟩⟩
  · intro m hm name u
    obtain ⟨cs0, es, e3, e4, rfl⟩ := (hx m).1 hm
    have hnames : ∀ {l : List RawComponent} {l0 : List Component}, l.mapM RawComponent.read = .ok l0 → l0.map (·.name) = l.map (·.name) := by
      intro l
      induction l with
      | nil => intro l0 h; cases h; rfl
      | cons a l ih =>
        intro l0 h
        rw [List.mapM_cons] at h
        obtain ⟨b, h1, h⟩ := bind_ok h
        obtain ⟨bs, h2, h⟩ := bind_ok h
        cases h
        rw [List.map_cons, List.map_cons, ih h2, raw_name h1]
    have hnames' : ∀ {l l0 : List Component}, l.mapM (enabledFor Z (declaredInputs t.lines)) = .ok l0 → l0.map (·.name) = l.map (·.name) := by
      intro l
      induction l with
      | nil => intro l0 h; cases h; rfl
      | cons a l ih =>
        intro l0 h
        rw [List.mapM_cons] at h
        obtain ⟨b, h1, h⟩ := bind_ok h
        obtain ⟨bs, h2, h⟩ := bind_ok h
        cases h
        rw [List.map_cons, List.map_cons, ih h2, enabledFor_name h1]
    have hnd : (es.map (·.name)).Nodup := by
      rw [hnames' e4, List.map_map]
      show (cs0.map (·.name)).Nodup
      rw [hnames e3]
      exact h.names
    have hv : ∀ cx, xmlLoader.view (es.foldl (fun m c => hmInsert c.name c m) []) name = .ok cx ↔ ∃ raw ∈ cs, ∃ c0, raw.read = .ok c0 ∧
        c0.name = name ∧ enabledFor Z (declaredInputs t.lines) c0.unnamed = .ok cx := by
      intro cx
      rw [xml_view, lookup_inserted name cx es [] hnd (by simp)]
      constructor
      · rintro ⟨h5 | h5, _⟩
        · obtain ⟨h5, h6⟩ := h5
          obtain ⟨cu, h7, h8⟩ := (mapM_mem_iff e4 cx).1 h5
          obtain ⟨c0, h9, rfl⟩ := List.mem_map.1 h7
          obtain ⟨raw, hr, h10⟩ := (mapM_mem_iff e3 c0).1 h9
          exact ⟨raw, hr, c0, h10, (enabledFor_name h8).symm.trans h6, h8⟩
        · cases h5
      · rintro ⟨raw, hr, c0, h5, rfl, h6⟩
        have h7 : cx.name = c0.unnamed.name := enabledFor_name h6
        exact ⟨.inl ⟨(mapM_mem_iff e4 cx).2 ⟨_, List.mem_map_of_mem ((mapM_mem_iff e3 c0).2 ⟨raw, hr, h5⟩), h6⟩, h7⟩, h7⟩
    constructor
    · rintro ⟨cx, h5, h6⟩
      obtain ⟨raw, hr, c0, h7, h8, h9⟩ := (hv cx).1 h5
      obtain ⟨cj, h10, h11⟩ := (enabledFor_same _ c0 u).1 ⟨cx, h9, h6⟩
      exact ⟨cj, (hj _ _).2 ⟨raw, hr, c0, h7, h8, h10⟩, h11⟩
    · rintro ⟨cj, h5, h6⟩
      obtain ⟨raw, hr, c0, h7, h8, h9⟩ := (hj _ _).1 h5
      obtain ⟨cx, h10, h11⟩ := (enabledFor_same _ c0 u).2 ⟨cj, h9, h6⟩
      exact ⟨cx, (hv _).2 ⟨raw, hr, c0, h7, h8, h10⟩, h11⟩

end Projects

/-! ## What differs -/

/-- **C67 fails for the labels of locations** (`C67_violated_comment`): the first label is taken for the invariant, whatever its
kind. A comment that looks like a guard becomes the invariant, and hides the invariant after it. -/
theorem C67_violated_comment :
    Xml.location "l" (.mk "location" [("id", "l")] []
      [.mk "label" [("kind", "comments")] "x<=5".toList [], .mk "label" [("kind", "invariant")] "x<=3".toList []]) =
      .ok ⟨"l", some (.le (.var "x") (.int 5)), .initial, ""⟩ ∧
    ∃ m, Xml.location "l" (.mk "location" [("id", "l")] [] [.mk "label" [("kind", "comments")] "the start!".toList []]) =
      .error (.panic m) := by
  refine ⟨by decide +kernel, _, by rfl⟩

/-- **C67 fails for empty labels** (`C67_violated_empty_label`): in JSON an empty guard is no guard; in XML it is a panic. -/
theorem C67_violated_empty_label :
    (∃ e, (⟨"e", "l", "m", "OUTPUT", [], [], "a"⟩ : RawEdge).read = .ok e ∧ e.guard = none) ∧
    ∃ m, Xml.edge (.mk "transition" [] [] [.mk "source" [("ref", "l")] [] [], .mk "target" [("ref", "m")] [] [],
      .mk "label" [("kind", "guard")] [] [], .mk "label" [("kind", "synchronisation")] "a!".toList []]) = .error (.panic m) :=
  ⟨⟨_, rfl, rfl⟩, _, rfl⟩

/-- **Edges without a synchronisation** (`C67_violated_no_sync`) become outputs with the empty name as their action. -/
theorem C67_violated_no_sync :
    Xml.edge (.mk "transition" [] [] [.mk "source" [("ref", "l")] [] [], .mk "target" [("ref", "m")] [] []]) =
      .ok ⟨"NotImplemented", "l", "m", .output, none, none, ""⟩ := by
  rfl

/-- **Names of edges are lost** (`C67_violated_names`): all edges of all components have the same. -/
theorem C67_violated_names {x : Xml} {e : Edge} (h : x.edge = .ok e) : e.id = "NotImplemented" := by
  unfold Xml.edge at h
  obtain ⟨_, _, h⟩ := bind_ok h
  obtain ⟨_, _, h⟩ := bind_ok h
  obtain ⟨_, _, h⟩ := bind_ok h
  cases h
  rfl

/-- **Components without system declarations** (`C67_violated_no_system`) crash the reader, although the server does not use the
declarations. -/
theorem C67_violated_no_system {x : Xml} (h : x.find "system" = none) (cs : List Component) : x.components ≠ .ok cs := by
  intro h1
  unfold Xml.components Xml.project at h1
  obtain ⟨_, h1, _⟩ := bind_ok h1
  obtain ⟨_, _, h1⟩ := bind_ok h1
  rw [h] at h1
  cases h1

/-! ## A concrete case -/

/-- the component of C27 -/
def exShyXml : Xml := .mk "template" [] []
  [.mk "name" [] "S".toList [], .mk "declaration" [] "clock x;\r".toList [],
   .mk "location" [("id", "L"), ("x", "0")] [] [.mk "name" [] "start".toList [], .mk "label" [("kind", "invariant")] "x<=5".toList []],
   .mk "location" [("id", "M")] [] [.mk "label" [("kind", "invariant")] "x<=2".toList []],
   .mk "init" [("ref", "L")] [] [],
   .mk "transition" [("action", "")] [] [.mk "source" [("ref", "L")] [] [], .mk "target" [("ref", "M")] [] [],
     .mk "label" [("kind", "synchronisation")] "a?".toList [], .mk "label" [("kind", "guard")] "x<=3".toList [],
     .mk "label" [("kind", "comments")] "early".toList [], .mk "label" [("kind", "assignment")] "x=1".toList []],
   .mk "transition" [] [] [.mk "source" [("ref", "M")] [] [], .mk "target" [("ref", "L")] [] [],
     .mk "label" [("kind", "synchronisation")] "c!".toList [], .mk "nail" [] [] []]]

def exShyRaw : RawComponent := ⟨"S", "clock x;",
  [⟨"L", "x<=5".toList, "INITIAL", "NORMAL"⟩, ⟨"M", "x<=2".toList, "NORMAL", "NORMAL"⟩],
  [⟨"e", "L", "M", "INPUT", "x<=3".toList, "x=1".toList, "a"⟩, ⟨"f", "M", "L", "OUTPUT", [], [], "c"⟩]⟩

def exShyProject : Xml := .mk "nta" [] []
  [.mk "declaration" [] "broadcast chan a, c;".toList [], exShyXml, .mk "system" [] (exShyText.text ['\r']) []]

theorem exShyXml_template : XmlTemplate exShyXml exShyRaw where
  name := ⟨_, rfl, rfl⟩
  declarations := ⟨by decide, .inr ⟨_, ['\r'], rfl, .inr rfl, by decide +kernel⟩⟩
  locations := ⟨_, "L", rfl, rfl, .cons ⟨rfl, rfl, .inr ⟨_, rfl, rfl, by decide⟩⟩ (.cons ⟨rfl, rfl, .inr ⟨_, rfl, rfl, by decide⟩⟩ .nil)⟩
  edges := by
    refine .cons ⟨⟨_, rfl, rfl⟩, ⟨_, rfl, rfl⟩, ?_, .inr ⟨_, rfl, rfl, by decide⟩, .inr ⟨_, rfl, rfl, by decide⟩, .inl rfl, ⟨_, rfl, rfl⟩, by decide⟩
      (.cons ⟨⟨_, rfl, rfl⟩, ⟨_, rfl, rfl⟩, ?_, .inl ⟨rfl, rfl⟩, .inl ⟨rfl, rfl⟩, .inr rfl, ⟨_, rfl, rfl⟩, by decide⟩ .nil)
    · intro l hl
      have : l ∈ [Xml.mk "label" [("kind", "synchronisation")] "a?".toList [], .mk "label" [("kind", "guard")] "x<=3".toList [],
        .mk "label" [("kind", "comments")] "early".toList [], .mk "label" [("kind", "assignment")] "x=1".toList []] := hl
      simp only [List.mem_cons, List.not_mem_nil, or_false] at this
      rcases this with rfl | rfl | rfl | rfl <;> exact ⟨_, rfl⟩
    · intro l hl
      have : l ∈ [Xml.mk "label" [("kind", "synchronisation")] "c!".toList []] := hl
      simp only [List.mem_cons, List.not_mem_nil, or_false] at this
      subst this
      exact ⟨_, rfl⟩

/-- The hypotheses of `C67_project_partial` hold, and the project can be opened. -/
example : XmlProject exShyProject [exShyRaw] exShyText ∧ (∃ c, exShyXml.component = .ok c ∧ c.unnamed = exShy.unnamed) ∧
    ∃ P, openProject (filesOf [exShyRaw]) (exShyText.text []) = .ok P ∧ (jsonLoader FedD).view P "S" = .ok exShyEnabled ∧
      ∃ m, exShyProject.openProject FedD = .ok m := by
  have h : XmlProject exShyProject [exShyRaw] exShyText :=
    ⟨.cons exShyXml_template .nil, by decide, ⟨_, ['\r'], rfl, .inr rfl, rfl⟩, exShyText_proper⟩
  have hr : exShyRaw.read = .ok exShy := by decide +kernel
  obtain ⟨P, h1, h2⟩ := C66_project_partial (Z := FedD) (filesOf [exShyRaw]) exShyText_proper
  have h3 : declaredInputs exShyText.lines "S" = some ["a", "b"] := by decide +kernel
  have h4 : (jsonLoader FedD).view P "S" = .ok exShyEnabled := by
    refine (h2 _ _).2 ⟨exShyRaw, exShy, by decide +kernel, hr, rfl, ?_⟩
    rw [h3]
    exact exShy_enabled
  refine ⟨h, ⟨_, (C67_component exShyXml_template _).2 ⟨_, hr, rfl⟩, unnamed_twice _⟩, P, h1, h4,
    (C67_project_partial (Z := FedD) h h1).1.2 fun raw hraw => ?_⟩
  rw [List.mem_singleton.1 hraw]
  exact ⟨_, h4⟩

end Reveaal
