import Verif.Props.C45

/-!
# C47: refinement is a precongruence for composition

Replacing a component by a refinement of it keeps a composed system a refinement: this is what makes
stepwise development sound.
-/

namespace Reveaal
open ZoneLib
variable {F : Type} [ZoneLib F]

/-- If the deterministic system `s` refines the input-enabled system `t`, then `s || u` refines `t || u`,
for every `u` that knows none of the outputs `s` has in addition to those of `t`. -/
theorem C47_composition_monotone (s t u su tu : Sys F) (hs : s.Accepted) (ht : t.Accepted)
    (hu : u.Accepted) (hsu : Sys.newComposition s u = .ok su) (htu : Sys.newComposition t u = .ok tu)
    (hd1 : s.DisjointClocks u) (hd2 : t.DisjointClocks u) (hiot : ∀ a ∈ t.inputs, a ∉ t.outputs)
    (hiou : ∀ a ∈ u.inputs, a ∉ u.outputs)
    (hextra : ∀ a ∈ s.outputs, a ∉ t.outputs → u.hasAction a = false)
    (hdet : s.ts.Deterministic) (hen : t.ts.InputEnabled) (h : Refines s.ts t.ts) :
    Refines su.ts tu.ts := by
  have gsu : su.Good := (Sys.Accepted.composition hs hu hsu).good
  have gtu : tu.Good := (Sys.Accepted.composition ht hu htu).good
  have hs := hs.good
  have ht := ht.good
  have hu := hu.good
  have j1 := Sys.join_composition hs hu hd1 hsu
  have j2 := Sys.join_composition ht hu hd2 htu
  have f := h.alphabets
  have hsin : ∀ a, a ∈ su.inputs ↔ (a ∈ s.inputs ∧ a ∉ u.outputs) ∨ (a ∈ u.inputs ∧ a ∉ s.outputs) := by
    obtain ⟨_, rfl⟩ := Sys.newComposition_eq hsu
    intro a; rw [Sys.inputs_composition, mem_mkSet]
    simp only [List.mem_append, List.mem_filter, Bool.not_eq_true', List.contains_eq_mem,
      decide_eq_false_iff_not]
  have htin : ∀ a, a ∈ tu.inputs ↔ (a ∈ t.inputs ∧ a ∉ u.outputs) ∨ (a ∈ u.inputs ∧ a ∉ t.outputs) := by
    obtain ⟨_, rfl⟩ := Sys.newComposition_eq htu
    intro a; rw [Sys.inputs_composition, mem_mkSet]
    simp only [List.mem_append, List.mem_filter, Bool.not_eq_true', List.contains_eq_mem,
      decide_eq_false_iff_not]
  have hsout : ∀ a, a ∈ su.outputs ↔ a ∈ s.outputs ∨ a ∈ u.outputs := by
    obtain ⟨_, rfl⟩ := Sys.newComposition_eq hsu
    intro a; rw [Sys.outputs_composition, mem_setUnion]
  have htout : ∀ a, a ∈ tu.outputs ↔ a ∈ t.outputs ∨ a ∈ u.outputs := by
    obtain ⟨_, rfl⟩ := Sys.newComposition_eq htu
    intro a; rw [Sys.outputs_composition, mem_setUnion]
  have hso : ∀ a ∈ s.outputs, a ∉ u.outputs := by
    obtain ⟨hd, _⟩ := Sys.newComposition_eq hsu
    exact hd
  have fin : ∀ a ∈ s.inputs, a ∈ t.inputs := f.inputs
  have fout : ∀ a ∈ t.outputs, a ∈ s.outputs := f.outputs
  have fio : ∀ a ∈ s.inputs, a ∉ t.outputs := f.inOut
  have foi : ∀ a ∈ s.outputs, a ∉ t.inputs := f.outIn
  have huk : ∀ {a}, a ∈ u.inputs → u.hasAction a = true := fun ha => Sys.hasAction_of_input ha
  have huo : ∀ {a}, a ∈ u.outputs → u.hasAction a = true := fun ha => Sys.hasAction_of_output ha
  have hun : ∀ {a}, u.hasAction a = false → a ∉ u.inputs ∧ a ∉ u.outputs := by
    intro a ha
    exact ⟨fun hc => (by rw [huk hc] at ha; cases ha), fun hc => (by rw [huo hc] at ha; cases ha)⟩
  have hno : ∀ {x : Sys F} {a}, a ∉ x.inputs → a ∉ x.outputs → x.hasAction a = false := by
    intro x a h1 h2
    rw [← Bool.not_eq_true, Sys.hasAction_iff]; tauto
  have hxnot : ∀ a ∈ s.outputs, a ∉ t.outputs → a ∉ u.inputs ∧ a ∉ u.outputs := fun a h1 h2 =>
    hun (hextra a h1 h2)
  refine ⟨⟨fun a ha hc => ?_, fun a ha hc => ?_, fun a ha => ?_, fun a ha => ?_⟩, ?_⟩
  · rcases (hsin a).1 ha with ⟨h1, h2⟩ | ⟨h1, h2⟩ <;> rcases (htout a).1 hc with h3 | h3
    · exact fio a h1 h3
    · exact h2 h3
    · exact h2 (fout a h3)
    · exact hiou a h1 h3
  · rcases (hsout a).1 ha with h1 | h1 <;> rcases (htin a).1 hc with ⟨h2, h3⟩ | ⟨h2, h3⟩
    · exact foi a h1 h2
    · exact (hxnot a h1 h3).1 h2
    · exact h3 h1
    · exact hiou a h2 h1
  · rcases (hsin a).1 ha with ⟨h1, h2⟩ | ⟨h1, h2⟩
    · exact (htin a).2 (.inl ⟨fin a h1, h2⟩)
    · exact (htin a).2 (.inr ⟨h1, fun hc => h2 (fout a hc)⟩)
  · rcases (htout a).1 ha with h1 | h1
    · exact (hsout a).2 (.inl (fout a h1))
    · exact (hsout a).2 (.inr h1)
  have initLoc : ∀ {y : Sys F}, y.Good → ∀ {l}, y.initialLoc = .ok (some l) → y.IsLoc l := by
    intro y hy l hl
    obtain ⟨o, e1, e2⟩ := hy.initial
    rw [hl] at e1; cases e1; exact e2 _ rfl
  obtain ⟨o1, ho1, _⟩ := gsu.initial
  obtain ⟨o2, ho2, _⟩ := gtu.initial
  rcases h.states with ⟨a1, a2⟩ | ⟨k, m, a1, a2, g⟩
  · have a1 : s.initialLoc = _ := a1
    have a2 : t.initialLoc = _ := a2
    left
    constructor
    · cases o1 with
      | none => exact ho1
      | some x =>
        obtain ⟨a, b, ha, _, _⟩ := j1.init x ho1
        rw [a1] at ha; cases ha
    · cases o2 with
      | none => exact ho2
      | some x =>
        obtain ⟨a, b, ha, _, _⟩ := j2.init x ho2
        rw [a2] at ha; cases ha
  have a1 : s.initialLoc = _ := a1
  have a2 : t.initialLoc = _ := a2
  cases o1 with
  | none =>
    rcases j1.initNone ho1 with hc | hc
    · rw [a1] at hc; cases hc
    · refine .inl ⟨ho1, ?_⟩
      cases o2 with
      | none => exact ho2
      | some x =>
        obtain ⟨a, b, _, hb, _⟩ := j2.init x ho2
        rw [hc] at hb; cases hb
  | some x =>
    obtain ⟨k', b, hk, hb, hx⟩ := j1.init x ho1
    rw [a1] at hk; cases hk
    cases o2 with
    | none =>
      rcases j2.initNone ho2 with hc | hc
      · rw [a2] at hc; cases hc
      · rw [hb] at hc; cases hc
    | some x2 =>
      obtain ⟨m', b', hm, hb', hx2⟩ := j2.init x2 ho2
      rw [a2] at hm; cases hm
      rw [hb] at hb'; cases hb'
      refine .inr ⟨x, x2, ho1, ho2, fun hz => ?_⟩
      have hz' := (j1.inv hx).1 hz
      obtain ⟨R, hR, r0⟩ := g hz'.1
      have hmz := hR.inv r0 hz'.1
      refine ⟨fun x y x2 y2 => ∃ k v m w b z, R k v m w ∧ s.ts.Reach k v ∧ t.ts.Reach m w ∧ su.IsLoc x ∧
        tu.IsLoc x2 ∧
        Located s u (fun x a b => LocTree.compose a b .composition = .ok x) x y k v b z ∧
        Located t u (fun x a b => LocTree.compose a b .composition = .ok x) x2 y2 m w b z,
        ⟨?_, ?_, ?_⟩, k, zeroVal, m, zeroVal, b, zeroVal, r0, .init a1 hz'.1, .init a2 hmz,
        initLoc gsu ho1, initLoc gtu ho2, ?_, ?_⟩
      · rintro x y x2 y2 o x' y' ⟨k, v, m, w, b, z, r, rs, rt, lx, lx2, l1, l2⟩ hos hact
        have lx' := (Sys.act_valid gsu lx l1.valid hact).1
        rcases (hsout o).1 hos with hoS | hoU
        · by_cases hoT : o ∈ t.outputs
          · refine ⟨fun hotu => ?_, fun hn => absurd ((htout o).2 (.inl hoT)) hn⟩
            cases hk : u.hasAction o with
            | true =>
              obtain ⟨k', v', b', z', e1, e2, l1'⟩ := l1.act_both j1 gsu hs hu lx hact
                (Sys.hasAction_of_output hoS) hk
              obtain ⟨m', w', e3, r'⟩ := (hR.output r hoS e1).1 hoT
              obtain ⟨x2', y2', e4, l2'⟩ := l2.sync j2 gtu ht hu hd2 lx2 (Sys.hasAction_of_output hotu) e3 e2
              exact ⟨x2', y2', e4, k', v', m', w', b', z', r', .act rs e1, .act rt e3, lx',
                (Sys.act_valid gtu lx2 l2.valid e4).1, l1', l2'⟩
            | false =>
              obtain ⟨k', v', e1, hbi, l1'⟩ := l1.act_left j1 gsu hs hu lx hact
                (Sys.hasAction_of_output hoS) hk
              obtain ⟨m', w', e3, r'⟩ := (hR.output r hoS e1).1 hoT
              obtain ⟨x2', y2', e4, l2'⟩ := l2.alone j2 gtu ht hu hd2 lx2 (Sys.hasAction_of_output hotu) e3
                hk hbi
              exact ⟨x2', y2', e4, k', v', m', w', b, z, r', .act rs e1, .act rt e3, lx',
                (Sys.act_valid gtu lx2 l2.valid e4).1, l1', l2'⟩
          · have hk := hextra o hoS hoT
            refine ⟨fun hotu => ?_, fun _ => ?_⟩
            · rcases (htout o).1 hotu with hc | hc
              · exact absurd hc hoT
              · exact absurd hc (hun hk).2
            · obtain ⟨k', v', e1, hbi, l1'⟩ := l1.act_left j1 gsu hs hu lx hact
                (Sys.hasAction_of_output hoS) hk
              exact ⟨k', v', m, w, b, z, (hR.output r hoS e1).2 hoT, .act rs e1, rt, lx', lx2, l1', l2⟩
        · refine ⟨fun hotu => ?_, fun hn => absurd ((htout o).2 (.inr hoU)) hn⟩
          have hoS : o ∉ s.outputs := fun hc => hso o hc hoU
          have hoT : o ∉ t.outputs := fun hc => hoS (fout o hc)
          by_cases hiS : o ∈ s.inputs
          · obtain ⟨k', v', b', z', e1, e2, l1'⟩ := l1.act_both j1 gsu hs hu lx hact
              (Sys.hasAction_of_input hiS) (huo hoU)
            obtain ⟨m', w', e3⟩ := hen m w rt o (fin o hiS)
            obtain ⟨k1, v1, e5, r'⟩ := (hR.input r (fin o hiS) e3).1 hiS
            obtain ⟨rfl, rfl⟩ := Sys.act_unique hdet rs e1 e5
            obtain ⟨x2', y2', e4, l2'⟩ := l2.sync j2 gtu ht hu hd2 lx2 (Sys.hasAction_of_output hotu) e3 e2
            exact ⟨x2', y2', e4, k', v', m', w', b', z', r', .act rs e1, .act rt e3, lx',
              (Sys.act_valid gtu lx2 l2.valid e4).1, l1', l2'⟩
          · obtain ⟨b', z', e2, hki, l1'⟩ := l1.swap.act_left j1.swap gsu hu hs lx hact (huo hoU) (hno hiS hoS)
            by_cases hiT : o ∈ t.inputs
            · obtain ⟨m', w', e3⟩ := hen m w rt o hiT
              obtain ⟨x2', y2', e4, l2'⟩ := l2.sync j2 gtu ht hu hd2 lx2 (Sys.hasAction_of_output hotu) e3 e2
              exact ⟨x2', y2', e4, k, v, m', w', b', z', (hR.input r hiT e3).2 hiS, rs, .act rt e3, lx',
                (Sys.act_valid gtu lx2 l2.valid e4).1, l1'.swap, l2'⟩
            · obtain ⟨x2', y2', e4, l2'⟩ := l2.swap.alone j2.swap gtu hu ht (fun i h1 h2 => hd2 i h2 h1) lx2
                (Sys.hasAction_of_output hotu) e2 (hno hiT hoT) (Sys.Reach.inv rt)
              exact ⟨x2', y2', e4, k, v, m, w, b', z', r, rs, rt, lx',
                (Sys.act_valid gtu lx2 l2.valid e4).1, l1'.swap, l2'.swap⟩
      · rintro x y x2 y2 i x2' y2' ⟨k, v, m, w, b, z, r, rs, rt, lx, lx2, l1, l2⟩ hitu hact
        have lx2' := (Sys.act_valid gtu lx2 l2.valid hact).1
        have hitu' := (htin i).1 hitu
        have hiU : i ∉ u.outputs := by
          rcases hitu' with h1 | h1
          · exact h1.2
          · exact hiou i h1.1
        have hiT : i ∉ t.outputs := by
          rcases hitu' with h1 | h1
          · exact hiot i h1.1
          · exact h1.2
        by_cases hit : i ∈ t.inputs
        · have hiS : i ∉ s.outputs := fun hc => foi i hc hit
          by_cases hiu : i ∈ u.inputs
          · have hisu : i ∈ su.inputs := (hsin i).2 (.inr ⟨hiu, hiS⟩)
            refine ⟨fun _ => ?_, fun hn => absurd hisu hn⟩
            obtain ⟨m', w', b', z', e1, e2, l2'⟩ := l2.act_both j2 gtu ht hu lx2 hact
              (Sys.hasAction_of_input hit) (huk hiu)
            by_cases his : i ∈ s.inputs
            · obtain ⟨k', v', e3, r'⟩ := (hR.input r hit e1).1 his
              obtain ⟨x', y', e4, l1'⟩ := l1.sync j1 gsu hs hu hd1 lx (Sys.hasAction_of_input hisu) e3 e2
              exact ⟨x', y', e4, k', v', m', w', b', z', r', .act rs e3, .act rt e1,
                (Sys.act_valid gsu lx l1.valid e4).1, lx2', l1', l2'⟩
            · obtain ⟨x', y', e4, l1'⟩ := l1.swap.alone j1.swap gsu hu hs (fun i h1 h2 => hd1 i h2 h1) lx
                (Sys.hasAction_of_input hisu) e2 (hno his hiS) (Sys.Reach.inv rs)
              exact ⟨x', y', e4, k, v, m', w', b', z', (hR.input r hit e1).2 his, rs, .act rt e1,
                (Sys.act_valid gsu lx l1.valid e4).1, lx2', l1'.swap, l2'⟩
          · obtain ⟨m', w', e1, hbi, l2'⟩ := l2.act_left j2 gtu ht hu lx2 hact
              (Sys.hasAction_of_input hit) (hno hiu hiU)
            refine ⟨fun hisu => ?_, fun hisu => ?_⟩
            · have his : i ∈ s.inputs := by
                rcases (hsin i).1 hisu with h1 | h1
                · exact h1.1
                · exact absurd h1.1 hiu
              obtain ⟨k', v', e3, r'⟩ := (hR.input r hit e1).1 his
              obtain ⟨x', y', e4, l1'⟩ := l1.alone j1 gsu hs hu hd1 lx (Sys.hasAction_of_input hisu) e3
                (hno hiu hiU) hbi
              exact ⟨x', y', e4, k', v', m', w', b, z, r', .act rs e3, .act rt e1,
                (Sys.act_valid gsu lx l1.valid e4).1, lx2', l1', l2'⟩
            · have his : i ∉ s.inputs := fun hc => hisu ((hsin i).2 (.inl ⟨hc, hiU⟩))
              exact ⟨k, v, m', w', b, z, (hR.input r hit e1).2 his, rs, .act rt e1, lx, lx2', l1, l2'⟩
        · have hiu : i ∈ u.inputs := by
            rcases hitu' with h1 | h1
            · exact absurd h1.1 hit
            · exact h1.1
          have his : i ∉ s.inputs := fun hc => hit (fin i hc)
          have hiS : i ∉ s.outputs := fun hc => (hxnot i hc hiT).1 hiu
          have hisu : i ∈ su.inputs := (hsin i).2 (.inr ⟨hiu, hiS⟩)
          refine ⟨fun _ => ?_, fun hn => absurd hisu hn⟩
          obtain ⟨b', z', e2, hmi, l2'⟩ := l2.swap.act_left j2.swap gtu hu ht lx2 hact (huk hiu) (hno hit hiT)
          obtain ⟨x', y', e4, l1'⟩ := l1.swap.alone j1.swap gsu hu hs (fun i h1 h2 => hd1 i h2 h1) lx
            (Sys.hasAction_of_input hisu) e2 (hno his hiS) (Sys.Reach.inv rs)
          exact ⟨x', y', e4, k, v, m, w, b', z', r, rs, rt, (Sys.act_valid gsu lx l1.valid e4).1, lx2',
            l1'.swap, l2'.swap⟩
      · rintro x y x2 y2 d ⟨k, v, m, w, b, z, r, rs, rt, lx, lx2, l1, l2⟩ hd
        obtain ⟨h1, h2⟩ := (l1.canDelay j1 hs hu).1 hd
        obtain ⟨h3, r'⟩ := hR.delay r h1
        exact ⟨(l2.canDelay j2 ht hu).2 ⟨h3, h2⟩, k, _, m, _, b, _, r', .delay rs h1, .delay rt h3, lx, lx2,
          l1.delayed hd.1, l2.delayed hd.1⟩
      · exact ⟨hx, initLoc hs a1, initLoc hu hb, Sys.zeroVal_valid, Sys.zeroVal_valid, Sys.zeroVal_valid,
          fun _ _ => rfl, fun _ _ => rfl⟩
      · exact ⟨hx2, initLoc ht a2, initLoc hu hb, Sys.zeroVal_valid, Sys.zeroVal_valid, Sys.zeroVal_valid,
          fun _ _ => rfl, fun _ _ => rfl⟩

/-- The hypotheses can be met: the user `B` with the machine `C'` instead of `A'`. -/
def sysCB : Sys Fed4 := getOk (Sys.newComposition sysC' sysB) (by decide +kernel)
def sysA'B : Sys Fed4 := getOk (Sys.newComposition sysA' sysB) (by decide +kernel)

theorem C47_example : Refines sysCB.ts sysA'B.ts :=
  C47_composition_monotone sysC' sysA' sysB sysCB sysA'B sysC'_accepted sysA'_accepted sysB_accepted
    (getOk_eq _) (getOk_eq _) (by unfold Sys.DisjointClocks; decide +kernel)
    (by unfold Sys.DisjointClocks; decide +kernel) (by decide +kernel) (by decide +kernel) (by decide +kernel)
    (exDet (by decide) (by decide +kernel) (by decide +kernel) (by decide +kernel) 10
      (passes_eq (by decide +kernel))) sysA'_enabled refines_CA

end Reveaal
