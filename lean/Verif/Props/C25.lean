import Verif.Props.C24
import Verif.Spec.Guard

/-! # C25: removing an unused clock does not change behaviour -/

namespace Reveaal
open ZoneLib ClockGraph

/-! ## What it means that the analysis calls a clock unused -/

section Unused
variable {F : Type} [ZoneLib F]

/-- Two valuations agree on all clocks but one. -/
def AgreeBut (c : Nat) (v w : Val) : Prop := ∀ i, i ≠ c → v i = w i

theorem AgreeBut.symm {c : Nat} {v w : Val} (h : AgreeBut c v w) : AgreeBut c w v := fun i hi => (h i hi).symm

theorem AgreeBut.delay {c n : Nat} {v w : Val} (h : AgreeBut c v w) (d : ℝ) :
    AgreeBut c (Reveaal.delay n v d) (Reveaal.delay n w d) := by
  intro i hi
  unfold Reveaal.delay
  rw [h i hi]

theorem AgreeBut.updates {c : Nat} : ∀ (us : List CUpdate) {v w : Val}, AgreeBut c v w →
    AgreeBut c (runUpdates us v) (runUpdates us w)
  | [], _, _, h => h
  | u :: us, v, w, h => by
    rw [runUpdates, runUpdates]
    refine AgreeBut.updates us fun i hi => ?_
    unfold assign
    split
    · rfl
    · exact h i hi

theorem sat_but {d : Disj} {c : Nat} (hc : c ∉ d.clocksOf) {v w : Val} (h : AgreeBut c v w) (hs : d.Sat v) :
    d.Sat w := by
  obtain ⟨k, hk, hs⟩ := hs
  refine ⟨k, hk, fun x hx => ?_⟩
  have hm : ∀ i ∈ [x.i, x.j], i ≠ c := fun i hi e =>
    hc (List.mem_flatMap.2 ⟨k, hk, List.mem_flatMap.2 ⟨x, hx, e ▸ hi⟩⟩)
  have := hs x hx
  unfold Constr.Sat at this ⊢
  rw [← h x.i (hm x.i (by simp)), ← h x.j (hm x.j (by simp))]
  exact this

/-- A federation whose constraints do not mention the clock does not depend on it. -/
theorem den_but {z : F} {c : Nat} (hc : c ∉ (minimal z).clocksOf) {v w : Val} (h : AgreeBut c v w)
    (hw : Valid (dim F) w) (hv : v ∈ den z) : w ∈ den z := by
  rw [← den_minimal z] at hv ⊢
  exact ⟨hw, sat_but hc h hv.2⟩

/-- If the analysis reports a clock as unused, no guard and no invariant that the system can get to depends on
it. -/
theorem unused_irrelevant {s : Sys F} (hs : s.Accepted) (hnames : s.CleanNames) {ord : HashOrder}
    {acts : List String} (hacts : s.ts.IsActions acts) {fuel : Nat} {ins : List ClockInstr}
    (h : findRedundantClocks ord s.ts acts fuel = .ok ins) {c : Nat} (hc : .remove c ∈ ins) :
    0 < c ∧ c < dim F ∧ ∀ l, s.Linked l → ∀ v w, AgreeBut c v w → Valid (dim F) w →
      (v ∈ InvSet l → w ∈ InvSet l) ∧
      ∀ a trans t, s.ts.hasAction a = true → s.ts.next l a = .ok trans → t ∈ trans → v ∈ den t.guard →
        w ∈ den t.guard := by
  obtain ⟨g, hg, h⟩ := bind_ok h
  cases h
  obtain ⟨_, h2⟩ := usedClocks_spec ord g
  have hc' : 0 < c ∧ c < dim F ∧ c ∉ g.usedClocks ord := by
    unfold redundancies at hc
    rcases List.mem_append.1 hc with hc | hc
    · obtain ⟨x, hx, he⟩ := List.mem_map.1 hc
      cases he
      have := List.mem_filter.1 ((ord.perm 1 _).mem_iff.1 hx)
      rw [List.mem_range'_1] at this
      have h2 := this.2
      simp only [List.contains_eq_mem, Bool.not_eq_eq_eq_not, Bool.not_true, decide_eq_false_iff_not] at h2
      exact ⟨by omega, by omega, h2⟩
    · obtain ⟨x, _, he⟩ := List.mem_map.1 hc
      cases he
  obtain ⟨h0, hn, hu⟩ := hc'
  refine ⟨h0, hn, fun l hl v w hvw hw => ?_⟩
  have hcov := graph_covers hs hnames hacts hg hl
  have hnot : ∀ d, (∃ e ∈ g.edges, d ∈ e.deps) ∨ (∃ p ∈ g.nodes, d ∈ p.2.deps) → d ≠ c := by
    rintro d hd rfl
    exact hu ((h2 d).2 ⟨by omega, hd⟩)
  refine ⟨fun hv i hi => ?_, fun a trans t ha hnx ht hv => ?_⟩
  · refine den_but (fun hm => ?_) hvw hw (hv i hi)
    refine hnot c (.inr ⟨_, hcov.node, ?_⟩) rfl
    unfold ClockNode.ofLoc
    rw [hi]
    exact hm
  · refine den_but (fun hm => ?_) hvw hw hv
    exact hnot c (.inl ⟨_, hcov.edge a trans t ha hnx ht, hm⟩) rfl

/-- **C25**, the analysis (partial): if a clock is reported as unused, then its value never matters: from two
states that differ in that clock only the same actions are possible, leading to states that again differ in that
clock only, and the same time can pass.  Missing: systems with odd location names, as in C24. -/
theorem C25_unused_partial (s : Sys F) (hs : s.Accepted) (hnames : s.CleanNames) (ord : HashOrder)
    (acts : List String) (hacts : s.ts.IsActions acts) (fuel : Nat) (ins : List ClockInstr)
    (h : findRedundantClocks ord s.ts acts fuel = .ok ins) (c : Nat) (hc : .remove c ∈ ins)
    (l : LocTree F) (v : Val) (hr : s.ts.Reach l v) (w : Val) (hw : Valid (dim F) w)
    (hvw : ∀ i, i ≠ c → v i = w i) :
    (∀ d, TS.CanDelay l v d ↔ TS.CanDelay l w d) ∧
    (∀ a l' v', s.ts.Act l v a l' v' → ∃ w', s.ts.Act l w a l' w' ∧ ∀ i, i ≠ c → v' i = w' i) ∧
    (∀ a l' w', s.ts.Act l w a l' w' → ∃ v', s.ts.Act l v a l' v' ∧ ∀ i, i ≠ c → v' i = w' i) := by
  obtain ⟨_, _, key⟩ := unused_irrelevant hs hnames hacts h hc
  have hlink := Sys.linked_of_reach hr
  obtain ⟨hloc, hv⟩ := hs.good.reach hr
  have act : ∀ {v w : Val}, Valid (dim F) v → Valid (dim F) w → AgreeBut c v w → ∀ {a l' v'},
      s.ts.Act l v a l' v' → ∃ w', s.ts.Act l w a l' w' ∧ AgreeBut c v' w' := by
    intro v w hv hw hvw a l' v' hst
    obtain ⟨ha, trans, hn, t, ht, ⟨hg, hi⟩, rfl, rfl⟩ := hst
    obtain ⟨trans', h8, h9⟩ := hs.good.next _ _ hloc ha
    have hn' : s.next l a = .ok trans := hn
    rw [h8] at hn'; cases hn'
    have hup := (h9 t ht).2.upd
    have hag := AgreeBut.updates t.updates hvw
    refine ⟨_, ⟨ha, trans, hn, t, ht, ⟨?_, ?_⟩, rfl, rfl⟩, hag⟩
    · exact (key l hlink v w hvw hw).2 a trans t ha hn ht hg
    · exact (key t.target (.step hlink ha hn ht) _ _ hag (runUpdates_valid hup hw)).1 hi
  have del : ∀ {v w : Val}, Valid (dim F) w → AgreeBut c v w → ∀ {d}, TS.CanDelay l v d → TS.CanDelay l w d := by
    intro v w hw hvw d hd
    exact ⟨hd.1, fun d' h1 h2 =>
      (key l hlink _ _ (hvw.delay d') (delay_valid hw h1)).1 (hd.2 d' h1 h2)⟩
  refine ⟨fun d => ⟨del hw hvw, del hv (AgreeBut.symm hvw)⟩, fun a l' v' hst => act hv hw hvw hst,
    fun a l' w' hst => ?_⟩
  obtain ⟨v', h1, h2⟩ := act hw hv (AgreeBut.symm hvw) hst
  exact ⟨v', h1, h2.symm⟩

end Unused

/-! ## What removing a clock does to a component -/

theorem lookup_filter {name n : String} (hn : n ≠ name) : ∀ (m : List (String × Nat)),
    (m.filter fun p => decide (p.1 ≠ name)).lookup n = m.lookup n
  | [] => rfl
  | (k, v) :: m => by
    by_cases hk : k = name
    · rw [List.filter_cons_of_neg (by simpa using hk), lookup_filter hn m, List.lookup_cons]
      have : (n == k) = false := by rw [hk]; simpa using hn
      rw [this]
    · rw [List.filter_cons_of_pos (by simpa using hk), List.lookup_cons, List.lookup_cons, lookup_filter hn m]

/-- The declarations agree on everything the expression mentions. -/
def SameFor (d d' : Decls) (mentions : String → Bool) : Prop :=
  d.ints = d'.ints ∧ ∀ n, mentions n = true → d.clocks.lookup n = d'.clocks.lookup n

theorem SameFor.left {d d' : Decls} {m m' : String → Bool} (h : SameFor d d' fun n => m n || m' n) :
    SameFor d d' m := ⟨h.1, fun n hn => h.2 n (by simp [hn])⟩

theorem SameFor.right {d d' : Decls} {m m' : String → Bool} (h : SameFor d d' fun n => m n || m' n) :
    SameFor d d' m' := ⟨h.1, fun n hn => h.2 n (by simp [hn])⟩

theorem replaceVars_congr {d d' : Decls} : ∀ (e : Arith), SameFor d d' (fun n => e.hasVar n) →
    e.replaceVars d = e.replaceVars d'
  | .clock _, _ | .int _, _ => rfl
  | .var n, h => by
    unfold Arith.replaceVars
    rw [h.2 n (by simp [Arith.hasVar]), h.1]
  | .add l r, h | .dif l r, h | .mul l r, h | .div l r, h | .mod l r, h => by
    unfold Arith.replaceVars
    rw [replaceVars_congr l h.left, replaceVars_congr r h.right]

theorem getConst_congr {d d' : Decls} (h : d.ints = d'.ints) : ∀ (e : Arith), e.getConst d = e.getConst d'
  | .clock _ | .int _ => rfl
  | .var n => by unfold Arith.getConst; rw [h]
  | .add l r | .dif l r | .mul l r | .div l r | .mod l r => by
    unfold Arith.getConst
    rw [getConst_congr h l, getConst_congr h r]

theorem getIndices_congr {d d' : Decls} {l r : Arith} (h : SameFor d d' fun n => l.hasVar n || r.hasVar n) :
    getIndices d l r = getIndices d' l r := by
  unfold getIndices
  rw [replaceVars_congr l h.left, replaceVars_congr r h.right]
  have : ∀ a b, simplifiedIndices d a b = simplifiedIndices d' a b := by
    intro a b
    unfold simplifiedIndices
    rw [getConst_congr h.1 a, getConst_congr h.1 b]
  simp only [this]

theorem applyConstraints_congr {F : Type} [ZoneLib F] {d d' : Decls} : ∀ (g : BoolE) (z : F),
    SameFor d d' (fun n => g.hasVar n) → applyConstraints d g z = applyConstraints d' g z
  | .and l r, z, h => by
    rw [applyConstraints.eq_def d, applyConstraints.eq_def d']
    dsimp only
    rw [applyConstraints_congr l z h.left]
    have : ∀ x : F, applyConstraints d r x = applyConstraints d' r x :=
      fun x => applyConstraints_congr r x h.right
    simp only [this]
  | .or l r, z, h => by
    rw [applyConstraints.eq_def d, applyConstraints.eq_def d']
    dsimp only
    rw [applyConstraints_congr l z h.left, applyConstraints_congr r z h.right]
  | .le l r, z, h | .lt l r, z, h | .eq l r, z, h => by
    rw [applyConstraints.eq_def d, applyConstraints.eq_def d']
    dsimp only
    rw [getIndices_congr (l := l) (r := r) h]
  | .ge l r, z, h | .gt l r, z, h => by
    have h' : SameFor d d' fun n => r.hasVar n || l.hasVar n :=
      ⟨h.1, fun n hn => h.2 n (by show (l.hasVar n || r.hasVar n) = true; rw [Bool.or_comm]; exact hn)⟩
    rw [applyConstraints.eq_def d, applyConstraints.eq_def d']
    dsimp only
    rw [getIndices_congr (l := r) (r := l) h']
  | .bool b, z, _ => by rw [applyConstraints.eq_def d, applyConstraints.eq_def d']

theorem value_congr {d d' : Decls} {v : Val} : ∀ (e : Arith), SameFor d d' (fun n => e.hasVar n) →
    constVal d e = constVal d' e ∧ value d v e = value d' v e
  | .clock _, _ | .int _, _ => ⟨rfl, rfl⟩
  | .var n, h => by
    unfold constVal value
    rw [h.2 n (by simp [Arith.hasVar]), h.1]
    exact ⟨rfl, rfl⟩
  | .add l r, h | .dif l r, h | .mul l r, h => by
    obtain ⟨a1, a2⟩ := value_congr (v := v) l h.left
    obtain ⟨b1, b2⟩ := value_congr (v := v) r h.right
    unfold constVal value
    rw [a1, a2, b1, b2]
    exact ⟨rfl, rfl⟩
  | .div l r, h | .mod l r, h => by
    obtain ⟨a1, a2⟩ := value_congr (v := v) l h.left
    obtain ⟨b1, b2⟩ := value_congr (v := v) r h.right
    unfold value constVal
    rw [a1, b1]
    exact ⟨rfl, rfl⟩

theorem holds_congr {d d' : Decls} {v : Val} : ∀ (g : BoolE), SameFor d d' (fun n => g.hasVar n) →
    (Holds d v g ↔ Holds d' v g)
  | .and l r, h => and_congr (holds_congr l h.left) (holds_congr r h.right)
  | .or l r, h => or_congr (holds_congr l h.left) (holds_congr r h.right)
  | .le l r, h | .lt l r, h | .eq l r, h | .ge l r, h | .gt l r, h => by
    unfold Holds
    rw [(value_congr (v := v) l h.left).2, (value_congr (v := v) r h.right).2]
  | .bool b, _ => Iff.rfl

/-- The condition under which a removal is harmless: expressions that mention the clock can never hold. -/
def Harmless (d : Decls) (name : String) (g : BoolE) : Prop :=
  g.hasVar name = true → ∀ v, ¬ Holds d v g

theorem removed_sameFor {d : Decls} {name : String} {g : BoolE} (h : g.hasVar name = false) :
    SameFor { d with clocks := d.clocks.filter fun p => decide (p.1 ≠ name) } d fun n => g.hasVar n :=
  ⟨rfl, fun n hn => lookup_filter (fun e => by subst e; exact absurd (hn.symm.trans h) (by decide)) _⟩

theorem removed_holds {d : Decls} {name : String} {g : BoolE} (h : Harmless d name g) (v : Val) :
    Holds { d with clocks := d.clocks.filter fun p => decide (p.1 ≠ name) } v
      (if g.hasVar name then .bool false else g) ↔ Holds d v g := by
  cases hg : g.hasVar name with
  | true => simp only [if_true]; exact ⟨fun h => absurd h (by simp [Holds]), fun hh => absurd hh (h hg v)⟩
  | false =>
    simp only [Bool.false_eq_true, if_false]
    exact holds_congr g (removed_sameFor hg)

/-- **C25**, the removal (partial): in the component from which a clock has been removed every guard and every
invariant holds for exactly the same valuations as before, provided the guards and invariants that mention the
clock could never hold; the compiled zones of all guards and invariants that do not mention it are the same; only
updates of the removed clock are dropped.  Missing: the proviso, without which it is false
(`C25_violated_trivial_guard`). -/
theorem C25_removal_partial (c c' : Component) (i : Nat) (h : c.removeClock i = .ok c') :
    ∃ name, c.clockName i = some name ∧
    -- guards and invariants
    (∀ (k : Nat) (e : Edge) (g : BoolE), c.edges[k]? = some e → e.guard = some g → Harmless c.decls name g →
      ∃ (e' : Edge) (g' : BoolE), c'.edges[k]? = some e' ∧ e'.guard = some g' ∧ ∀ v, Holds c'.decls v g' ↔ Holds c.decls v g) ∧
    (∀ (k : Nat) (l : Location) (g : BoolE), c.locations[k]? = some l → l.invariant = some g → Harmless c.decls name g →
      ∃ (l' : Location) (g' : BoolE), c'.locations[k]? = some l' ∧ l'.invariant = some g' ∧
        ∀ v, Holds c'.decls v g' ↔ Holds c.decls v g) ∧
    -- zones
    (∀ (k : Nat) (e : Edge) (g : BoolE), c.edges[k]? = some e → e.guard = some g → g.hasVar name = false →
      ∃ e' : Edge, c'.edges[k]? = some e' ∧ e'.guard = some g ∧
        ∀ (F : Type) [ZoneLib F] (z : F), applyConstraints c'.decls g z = applyConstraints c.decls g z) ∧
    -- everything else
    c'.edges.map (fun e => (e.id, e.source, e.target, e.sync, e.action, e.guard.isSome)) =
      c.edges.map (fun e => (e.id, e.source, e.target, e.sync, e.action, e.guard.isSome)) ∧
    c'.locations.map (fun l => (l.id, l.ty, l.invariant.isSome)) =
      c.locations.map (fun l => (l.id, l.ty, l.invariant.isSome)) ∧
    (∀ (k : Nat) (e : Edge) (us : List Update), c.edges[k]? = some e → e.update = some us →
      ∃ e' : Edge, c'.edges[k]? = some e' ∧ e'.update = some (us.filter fun u => u.var ≠ name)) ∧
    (∀ n, n ≠ name → c'.decls.clocks.lookup n = c.decls.clocks.lookup n) ∧
    name ∉ c'.decls.clocks.map (·.1) := by
  unfold Component.removeClock at h
  cases hn : c.clockName i with
  | none => rw [hn] at h; cases h
  | some name =>
    rw [hn] at h; cases h
    refine ⟨name, rfl, fun k e g he hg hh => ?_, fun k l g hl hg hh => ?_, fun k e g he hg hm => ?_, ?_, ?_,
      fun k e us he hu => ?_, fun n hne => lookup_filter hne _, ?_⟩
    · refine ⟨_, _, by rw [List.getElem?_map, he]; rfl, by unfold Component.removeFromEdge; rw [hg]; rfl, fun v => ?_⟩
      exact removed_holds hh v
    · refine ⟨_, _, by rw [List.getElem?_map, hl]; rfl,
        by unfold Component.removeFromLocation; rw [hg]; rfl, fun v => ?_⟩
      exact removed_holds hh v
    · refine ⟨_, by rw [List.getElem?_map, he]; rfl, by
        unfold Component.removeFromEdge; rw [hg]; simp [hm], fun F _ z => ?_⟩
      exact applyConstraints_congr g z (removed_sameFor hm)
    · rw [List.map_map]
      refine List.map_congr_left fun e _ => ?_
      simp [Component.removeFromEdge]
    · rw [List.map_map]
      refine List.map_congr_left fun l _ => ?_
      simp [Component.removeFromLocation]
    · exact ⟨_, by rw [List.getElem?_map, he]; rfl, by unfold Component.removeFromEdge; rw [hu]; rfl⟩
    · intro hm
      obtain ⟨p, hp, he⟩ := List.mem_map.1 hm
      have := (List.mem_filter.1 hp).2
      simp only [ne_eq, decide_not, Bool.not_eq_eq_eq_not, Bool.not_true, decide_eq_false_iff_not] at this
      exact this he

/-! ## Examples -/

/-- The clock `u` (index 2) is reset but never compared; the guard `x >= 0` says nothing, so the analysis calls `x`
unused as well. -/
def exIdle : Component := ⟨"T", ⟨[], [("x", 1), ("u", 2), ("y", 3)]⟩, [⟨"L", none, .initial, "NORMAL"⟩],
  [⟨"e", "L", "L", .input, some (.and (.ge (.var "x") (.int 0)) (.le (.var "y") (.int 3))),
     some [⟨"u", .int 0⟩], "a"⟩,
   ⟨"f", "L", "L", .output, some (.le (.var "y") (.int 3)), some [⟨"u", .int 0⟩], "b"⟩]⟩

def sysIdle : Sys Fed4 := .comp (getOk (CompComp.compile id exIdle 0) (by decide +kernel))

theorem sysIdle_accepted : sysIdle.Accepted :=
  .comp (Component.ok_of_okB (by decide)) (fun _ => .refl _) (getOk_eq _)

/-- The hypotheses of `C25_unused_partial` hold, for two clocks. -/
example : sysIdle.CleanNames ∧ sysIdle.ts.IsActions ["a", "b"] ∧
    findRedundantClocks plainOrder sysIdle.ts ["a", "b"] 10 = .ok [.remove 1, .remove 2] := by
  refine ⟨by decide +kernel, ?_, rfl⟩
  refine ⟨by decide, fun a => ?_⟩
  have h1 : sysIdle.ts.inputs = ["a"] := by decide +kernel
  have h2 : sysIdle.ts.outputs = ["b"] := by decide +kernel
  rw [h1, h2]; simp

/-- Removing `u` is harmless. -/
example : ∃ c', exIdle.removeClock 2 = .ok c' ∧ (∀ e ∈ exIdle.edges, ∀ g, e.guard = some g →
    Harmless exIdle.decls "u" g) ∧ c'.decls.clocks = [("x", 1), ("y", 3)] := by
  refine ⟨_, rfl, fun e he g hg hm => ?_, rfl⟩
  simp only [exIdle, List.mem_cons, List.not_mem_nil, or_false] at he
  rcases he with rfl | rfl <;> (cases hg; exact absurd hm (by decide))

/-- The full property is false: `x` is reported as unused and removed, and the guard `x >= 0 && y <= 3`, which holds
in the initial state, is replaced by `false`. -/
theorem C25_violated_trivial_guard :
    findRedundantClocks plainOrder sysIdle.ts ["a", "b"] 10 = .ok [.remove 1, .remove 2] ∧
    ∃ (c' : Component) (e : Edge) (g : BoolE) (e' : Edge), exIdle.removeClock 1 = .ok c' ∧ exIdle.edges[0]? = some e ∧ e.guard = some g ∧
      Holds exIdle.decls zeroVal g ∧ c'.edges[0]? = some e' ∧ e'.guard = some (.bool false) ∧
      ∀ v, ¬ Holds c'.decls v (.bool false) := by
  refine ⟨rfl, _, _, _, _, rfl, rfl, rfl, ?_, rfl, rfl, fun v h => ?_⟩
  · refine ⟨⟨0, 0, ?_, ?_, le_refl _⟩, 0, 3, ?_, ?_, by norm_num⟩
    all_goals simp [value, exIdle, zeroVal, List.lookup]
  · simp [Holds] at h

end Reveaal
