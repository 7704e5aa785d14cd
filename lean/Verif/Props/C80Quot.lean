import Verif.Props.C80
import Verif.Props.C63

/-!
# C80: the answers to `X <= T \\ S` and `S || X <= T`
-/

namespace Reveaal
open ZoneLib

section
variable {F G : Type} [ZoneLib F] [ZoneLib G]

theorem TwoOperands.reduces_to {r1 r2 : Recipe} {k n m : Nat} (h : TwoOperands r1 r2 k n m) {N M : Nat} {f : Nat → Nat}
    (hc : ∀ c ∈ r1.components ++ r2.components, c.Reducible N) (hf : ∀ i, k < i → i ≤ k + n + m → 0 < f i ∧ f i < M) :
    (Recipe.composition r1 r2).Reduces N M [] f id 0 ∧ r1.Reduces N M [] f id 0 ∧ r2.Reduces N M [] f id 0 := by
  have a1 : r1.Reduces N M [] f id 0 := ⟨⟨fun c hm => (hc c (List.mem_append_left _ hm)).clear.ok, by
      rw [h.noQuot1]; simp⟩, fun c hm => ⟨hc c (List.mem_append_left _ hm), fun _ i hi => by cases hi⟩, fun i hi _ => by
      have := h.left i hi; exact hf i (by omega) (by omega), by rw [h.noQuot1]; simp⟩
  have a2 : r2.Reduces N M [] f id 0 := ⟨⟨fun c hm => (hc c (List.mem_append_right _ hm)).clear.ok, by
      rw [h.noQuot2]; simp⟩, fun c hm => ⟨hc c (List.mem_append_right _ hm), fun _ i hi => by cases hi⟩, fun i hi _ => by
      have := h.right i hi; exact hf i (by omega) (by omega), by rw [h.noQuot2]; simp⟩
  refine ⟨⟨⟨fun c hm => (hc c hm).clear.ok, ?_⟩, fun c hm => ⟨hc c hm, fun _ i hi => by cases hi⟩, ?_, ?_⟩, a1, a2⟩
  · unfold Recipe.quotientClocks; rw [h.noQuot1, h.noQuot2]; simp
  · intro i hi hn
    have hi : i ∈ r1.clockIndices ++ r2.clockIndices := by
      unfold Recipe.clockIndices at hi ⊢
      rwa [← List.flatMap_append]
    rcases List.mem_append.1 hi with hi | hi
    · exact a1.range i hi hn
    · exact a2.range i hi hn
  · unfold Recipe.quotientClocks; rw [h.noQuot1, h.noQuot2]; simp

/-- Both operands of a composition may use other clocks, in another number of dimensions. -/
theorem moved_operands {r1 r2 : Recipe} {k n m a b : Nat} (T : TwoOperands r1 r2 k n m) (ha : a + m ≤ b)
    (hd : b + n < dim G) (hc : ∀ c ∈ r1.components ++ r2.components, c.Reducible (dim F)) {x y s : Sys F} {x' y' s' : Sys G}
    (hx : r1.Means x) (hy : r2.Means y) (hx' : (r1.reshape (Component.reduced [] fun i => i - k + b) id).Means x')
    (hy' : (r2.reshape (Component.reduced [] fun i => i - (k + n) + a) id).Means y')
    (hs : Sys.newComposition x y = .ok s) (hs' : Sys.newComposition x' y' = .ok s') :
    ∃ V, s.ts.Indistinguishable s'.ts V := by
  let f : Nat → Nat := fun i => if i ≤ k + n then i - k + b else i - (k + n) + a
  have e1 : r1.reshape (Component.reduced [] fun i => i - k + b) id = r1.reshape (Component.reduced [] f) id :=
    Recipe.reshape_clocks fun i hi => by
      have := T.left i hi
      exact (if_pos (by omega)).symm
  have e2 : r2.reshape (Component.reduced [] fun i => i - (k + n) + a) id = r2.reshape (Component.reduced [] f) id :=
    Recipe.reshape_clocks fun i hi => by
      have := T.right i hi
      exact (if_neg (by omega)).symm
  rw [e1] at hx'
  rw [e2] at hy'
  obtain ⟨R, R1, R2⟩ := T.reduces_to (M := dim G) hc (f := f) (fun i h1 h2 => by
    by_cases hi : i ≤ k + n
    · rw [show f i = i - k + b from if_pos hi]; omega
    · rw [show f i = i - (k + n) + a from if_neg hi]; omega)
  have A := (⟨R.ok, fun c hm => ⟨hc c hm, clockMap_on hm, fun _ i hi => by cases hi⟩, fun q hq => R.quot hq, fun hne =>
    absurd (by unfold Recipe.quotientClocks; rw [T.noQuot1, T.noQuot2]; rfl) hne⟩ :
      (Recipe.composition r1 r2).Fit (dim F) [] f id _)
  obtain ⟨A1, A2⟩ := Recipe.Fit.split (l := r1) (r := r2) (x := .composition r1 r2) rfl
    (fun c hc => List.mem_append.2 hc) A
  obtain ⟨env, _, _, hp, hx⟩ := hx
  obtain ⟨env1, _, _, hp1, hx'⟩ := hx'
  obtain ⟨env2, _, _, hp2, hy⟩ := hy
  obtain ⟨env3, _, _, hp3, hy'⟩ := hy'
  have al1 := Recipe.compile_alike R.fits hp hp1 A1 hx hx'
  have al2 := Recipe.compile_alike R.fits hp2 hp3 A2 hy hy'
  have inj : ((Recipe.composition r1 r2).clockMap [] f 0).Inj := by
    have key : ∀ i x, (Recipe.composition r1 r2).clockMap [] f 0 i = some x → (k < i ∧ i ≤ k + n + m) ∧ x = f i := by
      intro i x hx
      unfold Recipe.clockMap at hx
      rw [if_neg (by simp)] at hx
      split at hx
      · rename_i hi
        cases hx
        refine ⟨?_, rfl⟩
        have hi : i ∈ r1.clockIndices ++ r2.clockIndices := by
          unfold Recipe.clockIndices at hi ⊢
          rwa [← List.flatMap_append]
        rcases List.mem_append.1 hi with hi | hi
        · have := T.left i hi; omega
        · have := T.right i hi; omega
      · rw [if_neg (by unfold Recipe.quotientClocks; rw [T.noQuot1, T.noQuot2]; simp)] at hx
        cases hx
    intro i j x hi hj
    obtain ⟨_, e⟩ := key i x hi
    obtain ⟨_, e'⟩ := key j x hj
    rw [e] at e'
    have e' : (if i ≤ k + n then i - k + b else i - (k + n) + a) = (if j ≤ k + n then j - k + b else j - (k + n) + a) := e'
    split at e' <;> split at e' <;> omega
  have ac1 := Recipe.compile_accepted hp R1.ok hx
  have ac2 := Recipe.compile_accepted hp2 R2.ok hy
  exact ⟨_, (al1.composition al2 hs hs').indistinguishable (Sys.Accepted.composition ac1 ac2 hs) R.fits
    fun _ _ _ t _ _ _ _ => inj.coherent t.updates⟩

end

section
variable {Z : Nat → Type} [∀ d, ZoneLib (Z d)]

/-- **C80** `refinement: X <= T \\ S` is answered with yes exactly if `refinement: S || X <= T` is, unless it is reported that
a determinism or consistency check fails: for deterministic systems of which `S` and `X` accept all their inputs, `X` never
gets stuck and `S` has invariants convex in time (C63).  `T`, `S` and `X` are the systems in the first query; `SX` is
`S || X` with their clocks. -/
theorem C80_quotient_partial (hZ : ∀ d, dim (Z d) = d + 1) (X : QueryEnv Z) (hX : X.Fair)
    (load : String → Res Component) (hload : ∀ n c, load n = .ok c → c.decls.Numbered) (e t s : SysExpr)
    (h1 : e.NoQuotient) (h2 : t.NoQuotient) (h3 : s.NoQuotient) (d d' : Nat) (x Q T S SX : Sys (Z d)) (P T' : Sys (Z d'))
    (A1 : X.Asks load e (.quotient t s) d x Q) (A2 : X.Asks load (.composition s e) t d' P T')
    (hline : ∀ l r k q, getRecipes load [e, .quotient t s] 0 none = .ok ([l, r], k, q) → r.Lined)
    (clock : Nat) (hadj : Sys.Adjoint T S x Q SX clock)
    (hdetT : T.ts.Deterministic) (hdetS : S.ts.Deterministic) (hdetX : x.ts.Deterministic)
    (henS : S.ts.InputEnabled) (henX : x.ts.InputEnabled) (hconv : ∀ l, S.IsLoc l → TimeConvex l)
    (hstuck : x.ts.NeverStuck) (houtX : ∀ a ∈ x.outputs, T.hasAction a = true ∨ S.hasAction a = true)
    (b b' : Nat) (o : Option (RefFailure (Z b))) (o' : Option (RefFailure (Z b')))
    (ho : ∀ side g, o ≠ some (.precheck side g)) (ho' : ∀ side g, o' ≠ some (.precheck side g))
    (k1 : X.run load (.refinement e (.quotient t s)) = .ok (.refinement b o))
    (k2 : X.run load (.refinement (.composition s e) t) = .ok (.refinement b' o')) :
    (x.WaitsAsLong Q → o = none → o' = none) ∧ (P.WaitsAsLong T' → o' = none → o = none) := by
  have adj := C63_quotient_partial T S x Q SX clock hadj hdetT hdetS hdetX henS henX hconv hstuck houtX
  obtain ⟨l, r, q, hr, hc, ht, mx, mQ⟩ := A1
  obtain ⟨l', r', q', hr', hc', ht', mP, mT'⟩ := id A2
  have hl := hline l r d q hr
  obtain ⟨k, p, ha, hb, hk⟩ := getRecipes_two hr
  obtain ⟨k', p', ha', hb', hk'⟩ := getRecipes_two hr'
  obtain ⟨rfl, nx, _, cx, _⟩ := recipe_shift hload h1 ha
  -- the operands of the quotient
  obtain ⟨⟨rt, kt, qt⟩, gt, hb⟩ := bind_ok hb
  obtain ⟨⟨rs, ks, qs⟩, gs, hb⟩ := bind_ok hb
  obtain ⟨rfl, nt, lt, ct, _⟩ := recipe_shift hload h2 gt
  obtain ⟨rfl, ns, ls, cs, _⟩ := recipe_shift hload h3 gs
  cases hb
  obtain ⟨env, i, j, hp, mQ'⟩ := id mQ
  obtain ⟨⟨T0, i1⟩, y1, mQ'⟩ := bind_ok mQ'
  obtain ⟨⟨S0, i2⟩, y2, mQ'⟩ := bind_ok mQ'
  obtain ⟨z, y3, mQ'⟩ := bind_ok mQ'
  cases mQ'
  obtain ⟨_, e1⟩ := Sys.newQuotient_eq (newQuotient_unchecked y3)
  obtain ⟨_, e2⟩ := Sys.newQuotient_eq hadj.quotient
  rw [e1] at e2
  obtain ⟨rfl, rfl, _⟩ := (Sys.quotient.injEq ..).mp e2
  have mT : rt.Means T0 := ⟨env.sub false, _, _, hp, y1⟩
  have mS : rs.Means S0 := ⟨env.sub true, _, _, hp, y2⟩
  -- the operands of the composition
  obtain ⟨s2, x2, hP⟩ : ∃ s2 x2, Sys.newComposition s2 x2 = .ok P := by
    obtain ⟨⟨r1, _, _⟩, _, ha'⟩ := bind_ok ha'
    obtain ⟨⟨r2, _, _⟩, _, ha'⟩ := bind_ok ha'
    cases ha'
    obtain ⟨env, i, j, hp, hs⟩ := mP
    obtain ⟨⟨x', i1⟩, y1, hs⟩ := bind_ok hs
    obtain ⟨⟨y', i2⟩, y2, hs⟩ := bind_ok hs
    obtain ⟨z, y3, hs⟩ := bind_ok hs
    cases hs
    exact ⟨_, _, y3⟩
  obtain ⟨rs2, rx2, ks2, qs2, rfl, p1, p2, ms, mx2, as, ax, hdis, hcs, hcx, TO, g1, g2⟩ := composition_parts hload h3 h1 ha'
    (fun c hm => by rw [hZ]; exact (hc'.left c hm).1) mP hP
  obtain ⟨_, _, _, _, sh1⟩ := recipe_shift hload h3 p1
  obtain ⟨_, _, _, _, sh2⟩ := recipe_shift hload h1 p2
  rw [sh1 kt none] at gs
  cases gs
  rw [sh2 0 none] at ha
  cases ha
  obtain ⟨V, hV⟩ := moved_operands (F := Z d') (G := Z (ks2 - 0 + kt + 1)) (a := 0) (b := kt) TO (by omega) (by rw [hZ]; omega)
    (fun c hm => by
      rcases List.mem_append.1 hm with hm | hm
      · exact hcs c hm
      · exact hcx c hm) ms mx2 mS (by rw [Nat.add_sub_cancel' g1]; exact mx) hP hadj.composition
  obtain ⟨aT', aT, iT, _⟩ := C54_expression_partial (F := Z d') (G := Z (ks2 - 0 + kt + 1)) hload h2 hb' gt (by rw [hZ]; omega)
    (fun c hm => by rw [hZ]; exact (hc'.right c hm).1) mT' mT
  have gP := (Sys.Accepted.composition as ax hP).good
  have gSX := (Sys.Accepted.composition hadj.acceptedS hadj.acceptedX hadj.composition).good
  have tr := hV.refines gP gSX aT'.good aT.good iT
  have exact1 : x.WaitsAsLong Q → (o = none ↔ Refines x.ts Q.ts) := fun hw =>
    C64_exact_partial hZ X hX load hload e (.quotient t s) _ _ _ _ hr hc (Recipe.lined nx) hl
      (fun c hm => ht c (List.mem_append_left _ hm)) (fun c hm => ht c (List.mem_append_right _ hm)) x Q mx mQ hw b o ho k1
  have exact2 : P.WaitsAsLong T' → (o' = none ↔ Refines P.ts T'.ts) := fun hw =>
    A2.exact hZ hX hload (e := .composition s e) ⟨h3, h1⟩ h2 hw ho' k2
  refine ⟨fun hw h => ?_, fun hw h => ?_⟩
  · have R := tr.2 (adj.1 ((exact1 hw).1 h))
    exact (exact2 fun l m hl hm d hd => (Ref.of_refines R).waits hl hm hd).2 R
  · have R := adj.2 (tr.1 ((exact2 hw).1 h))
    exact (exact1 fun l m hl hm d hd => (Ref.of_refines R).waits hl hm hd).2 R

end

/-! ## A concrete case -/

/-- Says two things at any time -/
def exBoth81 : Component := ⟨"T", ⟨[], []⟩, [⟨"L0", none, .initial, "NORMAL"⟩],
  [⟨"e", "L0", "L0", .output, none, none, "a"⟩, ⟨"f", "L0", "L0", .output, none, none, "b"⟩]⟩

def load81 : String → Res Component := fun n =>
  if n = "T" then .ok exBoth81 else if n = "S" then .ok (exSay80 "S" "a") else if n = "X" then .ok (exSay80 "X" "b")
  else .error (.err "unknown")

theorem load81_numbered (n : String) (c : Component) (h : load81 n = .ok c) : c.decls.Numbered := by
  unfold load81 at h
  split at h
  · cases h; exact .refl _
  · split at h
    · cases h; exact .refl _
    · split at h
      · cases h; exact .refl _
      · cases h

theorem exBoth81_reducible {N : Nat} (hok : exBoth81.okB N = true) : exBoth81.Reducible N ∧ exBoth81.UpdatesAgree := by
  have hinv : ∀ l ∈ exBoth81.locations, l.invariant = none := fun l hl => by rw [List.mem_singleton.1 hl]
  have hg : ∀ e ∈ exBoth81.edges, e.guard = none ∧ e.update = none := fun e he => by
    simp only [exBoth81, List.mem_cons, List.not_mem_nil, or_false] at he
    rcases he with rfl | rfl <;> exact ⟨rfl, rfl⟩
  refine ⟨⟨⟨Component.ok_of_okB hok, fun e he g h => ?_, fun l hl g h => ?_, List.nodup_singleton _, ?_,
    List.nodup_nil⟩, ⟨fun e he g h => ?_, fun l hl g h => ?_⟩, List.nodup_nil⟩, fun e he us h => ?_⟩
  · rw [(hg e he).1] at h; cases h
  · rw [hinv l hl] at h; cases h
  · intro l hl l' hl' _ _
    rw [List.mem_singleton.1 hl, List.mem_singleton.1 hl']
  · rw [(hg e he).1] at h; cases h
  · rw [hinv l hl] at h; cases h
  · rw [(hg e he).2] at h; cases h

def comps81 : List Component := [exBoth81, exSay80 "S" "a", exSay80 "X" "b"]

theorem comps81_zero : ∀ c ∈ comps81, (c.Reducible 1 ∧ c.UpdatesAgree) ∧ c.Tame (FedD 0) := by
  intro c hc
  simp only [comps81, List.mem_cons, List.not_mem_nil, or_false] at hc
  rcases hc with rfl | rfl | rfl
  · exact ⟨exBoth81_reducible (by decide), tame80 (by decide) (by decide) (getOk_eq (by decide +kernel))
      (by decide +kernel) (by decide +kernel)⟩
  · exact ⟨exSay80_reducible (by decide), tame80 (by decide) (by decide) (getOk_eq (by decide +kernel))
      (by decide +kernel) (by decide +kernel)⟩
  · exact ⟨exSay80_reducible (by decide), tame80 (by decide) (by decide) (getOk_eq (by decide +kernel))
      (by decide +kernel) (by decide +kernel)⟩

theorem comps81_one : ∀ c ∈ comps81, (c.Reducible 2 ∧ c.UpdatesAgree) ∧ c.Tame (FedD 1) := by
  intro c hc
  simp only [comps81, List.mem_cons, List.not_mem_nil, or_false] at hc
  rcases hc with rfl | rfl | rfl
  · exact ⟨exBoth81_reducible (by decide), tame80 (by decide) (by decide) (getOk_eq (by decide +kernel))
      (by decide +kernel) (by decide +kernel)⟩
  · exact ⟨exSay80_reducible (by decide), tame80 (by decide) (by decide) (getOk_eq (by decide +kernel))
      (by decide +kernel) (by decide +kernel)⟩
  · exact ⟨exSay80_reducible (by decide), tame80 (by decide) (by decide) (getOk_eq (by decide +kernel))
      (by decide +kernel) (by decide +kernel)⟩

def queries81 : QueryEnv FedD := plainQueries false

def sys81 (d i : Nat) (c : Component) (h : (CompComp.compile (F := FedD d) id c i).toBool = true) : Sys (FedD d) :=
  .comp (getOk (CompComp.compile (F := FedD d) id c i) h)

def sysT81 : Sys (FedD 1) := sys81 1 0 exBoth81 (by decide +kernel)
def sysS81 : Sys (FedD 1) := sys81 1 1 (exSay80 "S" "a") (by decide +kernel)
def sysX81 : Sys (FedD 1) := sys81 1 0 (exSay80 "X" "b") (by decide +kernel)
def sysQ81 : Sys (FedD 1) := getOk (Sys.newQuotientUnchecked sysT81 sysS81 1) (by decide +kernel)
def sysSX81 : Sys (FedD 1) := getOk (Sys.newComposition sysS81 sysX81) (by decide +kernel)

theorem sys81_accepted {d i : Nat} {c : Component} {h} (hc : c.okB (d + 1) = true) : (sys81 d i c h).Accepted :=
  .comp (Component.ok_of_okB hc) (fun _ => .refl _) (getOk_eq _)

theorem adjoint81 : Sys.Adjoint sysT81 sysS81 sysX81 sysQ81 sysSX81 1 where
  acceptedT := sys81_accepted (by decide)
  acceptedS := sys81_accepted (by decide)
  acceptedX := sys81_accepted (by decide)
  clockPos := by decide
  clockDim := by decide
  quotient := getOk_eq _
  composition := getOk_eq _
  clocksTS := by unfold Sys.DisjointClocks; decide +kernel
  clocksSX := by unfold Sys.DisjointClocks; decide +kernel
  inOutS := by decide +kernel
  inOutX := by decide +kernel
  calmT := fun _ _ _ _ hn => CompComp.EdgesAgree.next (by decide +kernel) hn
  calmS := fun _ _ _ _ hn => CompComp.EdgesAgree.next (by decide +kernel) hn
  own := by decide +kernel
  initT := ⟨.leaf (.simple "L0") none .initial, rfl⟩
  initS := ⟨.leaf (.simple "L0") none .initial, rfl, fun i hi => by cases hi⟩

theorem det81 {d i : Nat} {c : Component} {h} (hc : c.okB (d + 1) = true) {as : List String} (hn : as.Nodup)
    (hi : (sys81 d i c h).inputs = []) (ho : (sys81 d i c h).outputs = as)
    (ha : (getOk (CompComp.compile (F := FedD d) id c i) h).EdgesAgree)
    (hp : passes (checkDeterminism (sys81 d i c h).ts (fun _ => as) 20) = true) : (sys81 d i c h).ts.Deterministic :=
  C12_deterministic_partial _ (sys81_accepted hc) (fun _ => as) (fun _ => ⟨hn, fun a => by
    rw [show (sys81 d i c h).ts.inputs = [] from hi, show (sys81 d i c h).ts.outputs = as from ho]; simp⟩)
    ha.updatesAgree 20 (passes_eq hp)

/-- No location has an invariant. -/
theorem free81 {d i : Nat} {c : Component} {h}
    (hf : ((getOk (CompComp.compile (F := FedD d) id c i) h).locations.all fun p => p.2.inv.isNone) = true)
    {l : LocTree (FedD d)} (hl : (sys81 d i c h).IsLoc l) : l.inv = none := by
  obtain ⟨p, hp, rfl⟩ := hl
  exact Option.isNone_iff_eq_none.1 (List.all_eq_true.1 hf p hp)

theorem meansQ81 : (Recipe.quotient (.component exBoth81 none) (.component (exSay80 "S" "a") none) 1).Means sysQ81 := by
  refine ⟨envK (FedD 1), 0, 2, envK_perm, ?_⟩
  have h : (Sys.newQuotient (envK (FedD 1)).checks (envK (FedD 1)).fuel sysT81 sysS81 1).toBool = true := by decide +kernel
  have e := getOk_eq h
  have e' := newQuotient_unchecked e
  rw [adjoint81.quotient] at e'
  have e' := Except.ok.inj e'
  rw [← e'] at e
  show (do
    let (l, i) ← (Recipe.component exBoth81 none).compile ((envK (FedD 1)).sub false) 0
    let (r, i) ← (Recipe.component (exSay80 "S" "a") none).compile ((envK (FedD 1)).sub true) i
    .ok (← Sys.newQuotient (envK (FedD 1)).checks (envK (FedD 1)).fuel l r 1, i)) = Except.ok (sysQ81, 2)
  have h1 : (Recipe.component exBoth81 none).compile ((envK (FedD 1)).sub false) 0 = .ok (sysT81, 1) := rfl
  have h2 : (Recipe.component (exSay80 "S" "a") none).compile ((envK (FedD 1)).sub true) 1 = .ok (sysS81, 2) := rfl
  rw [h1, ok_bind]
  dsimp only
  rw [h2, ok_bind]
  dsimp only
  rw [e, ok_bind]

theorem asksQ81 : queries81.Asks load81 (.component "X" none) (.quotient (.component "T" none) (.component "S" none)) 1
    sysX81 sysQ81 := by
  refine ⟨.component (exSay80 "X" "b") none, .quotient (.component exBoth81 none) (.component (exSay80 "S" "a") none) 1, some 1,
    rfl, ⟨by decide, ?_, ?_, .inl rfl, (fun h => by cases h), (fun h => by cases h), fun h => by cases h⟩, ?_,
    ⟨envK (FedD 1), 0, 1, envK_perm, rfl⟩, meansQ81⟩
  · intro c hm; exact (comps81_one c (by simp [Recipe.components, comps81] at hm ⊢; tauto)).1
  · intro c hm; exact (comps81_one c (by simp [Recipe.components, comps81] at hm ⊢; tauto)).1
  · intro c hm; exact (comps81_one c (by simp [Recipe.components, comps81] at hm ⊢; tauto)).2

theorem asksP81 : queries81.Asks load81 (.composition (.component "S" none) (.component "X" none)) (.component "T" none) 0
    (getOk ((Recipe.composition (.component (exSay80 "S" "a") none) (.component (exSay80 "X" "b") none)).compile
      (envK (FedD 0)) 0) (by decide +kernel)).1
    (getOk ((Recipe.component exBoth81 none).compile (envK (FedD 0)) 0) (by decide +kernel)).1 := by
  refine ⟨.composition (.component (exSay80 "S" "a") none) (.component (exSay80 "X" "b") none), .component exBoth81 none, none,
    rfl, ⟨by decide, ?_, ?_, .inl rfl, (fun h => by cases h), (fun h => by cases h), fun h => by cases h⟩, ?_,
    ⟨envK (FedD 0), 0, _, envK_perm, getOk_eq (by decide +kernel)⟩, ⟨envK (FedD 0), 0, _, envK_perm, getOk_eq (by decide +kernel)⟩⟩
  · intro c hm; exact (comps81_zero c (by simp [Recipe.components, comps81] at hm ⊢; tauto)).1
  · intro c hm; exact (comps81_zero c (by simp [Recipe.components, comps81] at hm ⊢; tauto)).1
  · intro c hm; exact (comps81_zero c (by simp [Recipe.components, comps81] at hm ⊢; tauto)).2

theorem line81 (l r : Recipe) (k : Nat) (q : Option Nat)
    (h : getRecipes load81 [.component "X" none, .quotient (.component "T" none) (.component "S" none)] 0 none = .ok ([l, r], k, q)) :
    r.Lined := by
  have e : getRecipes load81 [.component "X" none, .quotient (.component "T" none) (.component "S" none)] 0 none =
    .ok ([.component (exSay80 "X" "b") none, .quotient (.component exBoth81 none) (.component (exSay80 "S" "a") none) 1], 1,
      some 1) := rfl
  rw [e] at h
  cases h
  refine ⟨trivial, trivial, rfl, fun c hc ed he hs => ?_⟩
  rw [List.mem_singleton.1 hc] at he
  rw [List.mem_singleton.1 he] at hs
  cases hs

/-- Non-vacuity: `X <= T \\ S` and `S || X <= T` are answered with yes, and all conditions of the theorem are met. -/
example : queries81.run load81 (.refinement (.component "X" none) (.quotient (.component "T" none) (.component "S" none))) =
      .ok (.refinement 1 none) ∧
    queries81.run load81 (.refinement (.composition (.component "S" none) (.component "X" none)) (.component "T" none)) =
      .ok (.refinement 0 none) := by
  have k1 := refinementAnswer_yes (d := 1) (x := queries81.run load81 (.refinement (.component "X" none)
    (.quotient (.component "T" none) (.component "S" none)))) (by decide +kernel)
  have k2 := refinementAnswer_yes (d := 0) (x := queries81.run load81 (.refinement (.composition (.component "S" none)
    (.component "X" none)) (.component "T" none))) (by decide +kernel)
  have h := C80_quotient_partial dim_fedD queries81 (plainQueries_fair false) load81 load81_numbered (.component "X" none)
    (.component "T" none) (.component "S" none) trivial trivial trivial 1 0 _ _ _ _ _ _ _ asksQ81 asksP81 line81 1 adjoint81
    (det81 (by decide) (as := ["a", "b"]) (by decide) (by decide +kernel) (by decide +kernel) (by decide +kernel) (by decide +kernel))
    (det81 (by decide) (as := ["a"]) (by decide) (by decide +kernel) (by decide +kernel) (by decide +kernel) (by decide +kernel))
    (det81 (by decide) (as := ["b"]) (by decide) (by decide +kernel) (by decide +kernel) (by decide +kernel) (by decide +kernel))
    (noInputs_enabled (by decide +kernel)) (noInputs_enabled (by decide +kernel))
    (fun l hl v d d' _ _ _ _ _ i hi => by rw [free81 (by decide +kernel) hl] at hi; cases hi)
    (fun l v hr => .inl fun d hd => ⟨hd, fun d' _ _ i hi => by
      rw [free81 (by decide +kernel) (Sys.Good.reach adjoint81.acceptedX.good hr).1] at hi; cases hi⟩)
    (by decide +kernel) 1 0 none none (fun _ _ h => by cases h) (fun _ _ h => by cases h) k1 k2
  exact ⟨k1, k2⟩

end Reveaal
