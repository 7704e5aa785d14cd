import Verif.Spec.System
import Verif.Lemmas.Transition
import Verif.Props.C02

/-! # Structure of the systems the tool builds -/

namespace Reveaal
open ZoneLib Arith
variable {F : Type} [ZoneLib F]

/-! ## Generic list facts -/

theorem mapM_ok {α β : Type} {f : α → Res β} : ∀ {l : List α} {r : List β},
    l.mapM f = .ok r ↔ List.Forall₂ (fun a b => f a = .ok b) l r := by
  intro l
  induction l with
  | nil => intro r; simp [List.mapM_nil, pure, Except.pure, eq_comm]
  | cons a l ih =>
    intro r
    rw [List.mapM_cons]
    cases hfa : f a with
    | error e =>
      simp only [error_bind, reduceCtorEq, false_iff]
      intro h; cases h with | cons h _ => rw [hfa] at h; cases h
    | ok b =>
      simp only [ok_bind]
      cases hl : l.mapM f with
      | error e =>
        simp only [error_bind, reduceCtorEq, false_iff]
        intro h; cases h with
        | cons _ h => rw [← ih] at h; rw [hl] at h; cases h
      | ok bs =>
        simp only [ok_bind, pure, Except.pure, Except.ok.injEq]
        constructor
        · rintro rfl; exact .cons hfa (ih.1 hl)
        · intro h
          cases h with
          | cons h1 h2 =>
            rw [hfa] at h1; cases h1
            rw [← ih, hl] at h2; cases h2; rfl

theorem mapM_total {α β : Type} {f : α → Res β} {l : List α} (h : ∀ a ∈ l, ∃ b, f a = .ok b) :
    ∃ r, l.mapM f = .ok r := by
  induction l with
  | nil => exact ⟨[], rfl⟩
  | cons a l ih =>
    obtain ⟨b, hb⟩ := h a (by simp)
    obtain ⟨r, hr⟩ := ih fun a' ha' => h a' (by simp [ha'])
    exact ⟨b :: r, mapM_ok.2 (.cons hb (mapM_ok.1 hr))⟩

theorem forall2_mem_right {α β : Type} {R : α → β → Prop} {l : List α} {r : List β}
    (h : List.Forall₂ R l r) : ∀ b ∈ r, ∃ a ∈ l, R a b := by
  induction h with
  | nil => intro b hb; cases hb
  | cons h _ ih =>
    intro b hb
    rcases List.mem_cons.1 hb with rfl | hb
    · exact ⟨_, by simp, h⟩
    · obtain ⟨a, ha, h⟩ := ih b hb; exact ⟨a, by simp [ha], h⟩

theorem forall2_mem_left {α β : Type} {R : α → β → Prop} {l : List α} {r : List β}
    (h : List.Forall₂ R l r) : ∀ a ∈ l, ∃ b ∈ r, R a b := by
  induction h with
  | nil => intro b hb; cases hb
  | cons h _ ih =>
    intro b hb
    rcases List.mem_cons.1 hb with rfl | hb
    · exact ⟨_, by simp, h⟩
    · obtain ⟨a, ha, h⟩ := ih b hb; exact ⟨a, by simp [ha], h⟩

theorem mem_hmInsert {K V : Type} [DecidableEq K] {k : K} {v : V} : ∀ {m : List (K × V)}
    {p : K × V}, p ∈ hmInsert k v m → p = (k, v) ∨ (p ∈ m) := by
  intro m
  induction m with
  | nil => intro p hp; simp [hmInsert] at hp; exact .inl hp
  | cons q m ih =>
    intro p hp
    unfold hmInsert at hp
    split at hp
    · rcases List.mem_cons.1 hp with h | h
      · exact .inl h
      · exact .inr (by simp [h])
    · rcases List.mem_cons.1 hp with h | h
      · exact .inr (by simp [h])
      · rcases ih h with h | h
        · exact .inl h
        · exact .inr (by simp [h])

theorem hmInsert_keys {K V : Type} [DecidableEq K] {k : K} {v : V} : ∀ {m : List (K × V)} {x : K},
    x ∈ (hmInsert k v m).map (·.1) ↔ x = k ∨ x ∈ m.map (·.1) := by
  intro m
  induction m with
  | nil => intro x; simp [hmInsert]
  | cons q m ih =>
    intro x
    unfold hmInsert
    split
    · rename_i h; simp [h]
    · simp only [List.map_cons, List.mem_cons, ih]; tauto

theorem hmInsert_nodup {K V : Type} [DecidableEq K] {k : K} {v : V} : ∀ {m : List (K × V)},
    (m.map (·.1)).Nodup → ((hmInsert k v m).map (·.1)).Nodup := by
  intro m
  induction m with
  | nil => intro _; simp [hmInsert]
  | cons q m ih =>
    intro h
    unfold hmInsert
    simp only [List.map_cons, List.nodup_cons] at h
    split
    · rename_i hk; subst hk; simpa using h
    · rename_i hk
      simp only [List.map_cons, List.nodup_cons]
      refine ⟨?_, ih h.2⟩
      rw [hmInsert_keys]
      rintro (h1 | h1)
      · exact hk h1
      · exact h.1 h1

theorem mem_hmInsert_self {K V : Type} [DecidableEq K] {k : K} {v : V} : ∀ {m : List (K × V)},
    (k, v) ∈ hmInsert k v m := by
  intro m
  induction m with
  | nil => simp [hmInsert]
  | cons q m ih => unfold hmInsert; split <;> simp [ih]

/-- Other keys keep their entries. -/
theorem mem_hmInsert_other {K V : Type} [DecidableEq K] {k : K} {v : V} : ∀ {m : List (K × V)}
    {p : K × V}, p ∈ m → p.1 ≠ k → p ∈ hmInsert k v m := by
  intro m
  induction m with
  | nil => intro p hp; cases hp
  | cons q m ih =>
    intro p hp hk
    unfold hmInsert
    rcases List.mem_cons.1 hp with rfl | hp
    · rw [if_neg hk]; simp
    · split
      · simp [hp]
      · simp [ih hp hk]

theorem lookup_hmInsert {K V : Type} [DecidableEq K] [BEq K] [LawfulBEq K] {k x : K} {v : V} : ∀ {m : List (K × V)},
    (hmInsert k v m).lookup x = if x = k then some v else m.lookup x := by
  intro m
  induction m with
  | nil =>
    by_cases h : x = k
    · simp [hmInsert, h]
    · have : (x == k) = false := by simpa using h
      simp [hmInsert, List.lookup, h, this]
  | cons p m ih =>
    obtain ⟨k', v'⟩ := p
    unfold hmInsert
    by_cases hk : k' = k
    · subst hk
      by_cases h : x = k'
      · simp [h]
      · have : (x == k') = false := by simpa using h
        simp [List.lookup, h, this]
    · simp only [hk, if_false]
      by_cases h' : x = k'
      · subst h'
        simp [List.lookup, hk]
      · have : (x == k') = false := by simpa using h'
        simp only [List.lookup, this]
        exact ih

theorem lookup_isSome {K V : Type} [BEq K] [LawfulBEq K] {k : K} : ∀ {m : List (K × V)},
    k ∈ m.map (·.1) → ∃ v, m.lookup k = some v ∧ (k, v) ∈ m := by
  intro m
  induction m with
  | nil => intro h; cases h
  | cons q m ih =>
    intro h
    obtain ⟨k', v'⟩ := q
    by_cases hk : k = k'
    · subst hk; exact ⟨v', by simp [List.lookup], by simp⟩
    · simp only [List.map_cons, List.mem_cons] at h
      obtain ⟨v, h1, h2⟩ := ih (h.resolve_left hk)
      refine ⟨v, ?_, by simp [h2]⟩
      have : (k == k') = false := by simpa using hk
      simp [List.lookup, this, h1]

theorem nodup_keys_unique {K V : Type} {m : List (K × V)} (h : (m.map (·.1)).Nodup) {p q : K × V}
    (hp : p ∈ m) (hq : q ∈ m) (hk : p.1 = q.1) : p = q := by
  induction m with
  | nil => cases hp
  | cons x m ih =>
    simp only [List.map_cons, List.nodup_cons, List.mem_map, not_exists, not_and] at h
    rcases List.mem_cons.1 hp with hp' | hp' <;> rcases List.mem_cons.1 hq with hq' | hq'
    · rw [hp', hq']
    · subst hp'; exact absurd hk.symm (h.1 q hq')
    · subst hq'; exact absurd hk (h.1 p hp')
    · exact ih h.2 hp' hq'

/-! ## Set operations on action lists -/

theorem mem_setUnion {a b : List String} {x : String} : x ∈ setUnion a b ↔ x ∈ a ∨ x ∈ b := by
  simp [setUnion]; tauto
theorem mem_setDiff {a b : List String} {x : String} : x ∈ setDiff a b ↔ x ∈ a ∧ x ∉ b := by
  simp [setDiff]
theorem mem_setInter {a b : List String} {x : String} : x ∈ setInter a b ↔ x ∈ a ∧ x ∈ b := by
  simp [setInter]
theorem setDisjoint_iff {a b : List String} : setDisjoint a b = true ↔ ∀ x ∈ a, x ∉ b := by
  simp [setDisjoint]
theorem mem_mkSet {l : List String} {x : String} : x ∈ mkSet l ↔ x ∈ l := by
  have : ∀ (l acc : List String),
      x ∈ l.foldl (fun acc a => if a ∈ acc then acc else acc ++ [a]) acc ↔ x ∈ acc ∨ x ∈ l := by
    intro l
    induction l with
    | nil => intro acc; simp
    | cons a l ih =>
      intro acc
      rw [List.foldl_cons, ih]
      split
      · simp only [List.mem_cons]
        constructor
        · rintro (h | h) <;> simp [h]
        · rintro (h | rfl | h)
          · exact .inl h
          · left; assumption
          · exact .inr h
      · simp only [List.mem_append, List.mem_cons, List.not_mem_nil, or_false]; tauto
  simpa [mkSet] using this l []

omit [ZoneLib F] in
theorem Sys.hasAction_iff {s : Sys F} {a : String} :
    s.hasAction a = true ↔ a ∈ s.inputs ∨ a ∈ s.outputs := by
  simp [Sys.hasAction]

/-! ## Sets of valuations that depend on some clocks only -/

theorem Local.mono {n : Nat} {C D : List Nat} {S : Set Val} (h : Local n C S) (hs : ∀ i ∈ C, i ∈ D) :
    Local n D S := fun v w hv hw ha => h v w hv hw fun i hi => ha i (hs i hi)

theorem Local.inter {n : Nat} {C : List Nat} {S T : Set Val} (h : Local n C S) (h' : Local n C T) :
    Local n C (S ∩ T) := fun v w hv hw ha hm => ⟨h v w hv hw ha hm.1, h' v w hv hw ha hm.2⟩

theorem Local.union {n : Nat} {C : List Nat} {S T : Set Val} (h : Local n C S) (h' : Local n C T) :
    Local n C (S ∪ T) := fun v w hv hw ha hm => hm.imp (h v w hv hw ha) (h' v w hv hw ha)

theorem Local.compl {n : Nat} {C : List Nat} {S : Set Val} (h : Local n C S) :
    Local n C {v | Valid n v ∧ v ∉ S} := fun v w hv hw ha hm =>
  ⟨hw, fun hc => hm.2 (h w v hw hv (fun i hi => (ha i hi).symm) hc)⟩

theorem cmpSet_local {d : Decls} {C : List Nat} {n : Nat} {l r : Arith} {mk : Int → Ineq}
    (hd : d.ClocksIn (· ∈ C)) (hl : l.ClocksIn (· ∈ C)) (hr : r.ClocksIn (· ∈ C)) :
    Local n C (cmpSet d l r mk) := by
  intro v w hv hw ha hm i j c h
  obtain ⟨h1, h2⟩ := getIndices_clocksIn hd hl hr _ h
  have key : ∀ i, (i = 0 ∨ i ∈ C) → v i = w i := by
    rintro i (rfl | h)
    · rw [hv.1, hw.1]
    · exact ha i h
  rw [← key i h1, ← key j h2]
  exact hm i j c h

theorem codeSet_local {d : Decls} {C : List Nat} {n : Nat} (hd : d.ClocksIn (· ∈ C)) :
    ∀ {g : BoolE}, g.ClocksIn (· ∈ C) → Local n C (codeSet d g) := by
  intro g
  induction g with
  | and l r ihl ihr => intro h; exact (ihl h.1).inter (ihr h.2)
  | or l r ihl ihr => intro h; exact (ihl h.1).union (ihr h.2)
  | le l r => intro h; exact cmpSet_local hd h.1 h.2
  | ge l r => intro h; exact cmpSet_local hd h.2 h.1
  | lt l r => intro h; exact cmpSet_local hd h.1 h.2
  | gt l r => intro h; exact cmpSet_local hd h.2 h.1
  | eq l r =>
    intro h v w hv hw ha hm i j c hg
    obtain ⟨h1, h2⟩ := getIndices_clocksIn hd h.1 h.2 _ hg
    have key : ∀ i, (i = 0 ∨ i ∈ C) → v i = w i := by
      rintro i (rfl | h)
      · rw [hv.1, hw.1]
      · exact ha i h
    rw [← key i h1, ← key j h2]
    exact hm i j c hg
  | bool b => intro _ v w _ _ _ hm; exact hm

theorem BoolE.ClocksIn.mono {P Q : Nat → Prop} (hpq : ∀ i, P i → Q i) :
    ∀ {g : BoolE}, g.ClocksIn P → g.ClocksIn Q := by
  have ha : ∀ {e : Arith}, e.ClocksIn P → e.ClocksIn Q := by
    intro e
    induction e with
    | clock i => exact hpq i
    | int _ | var _ => exact id
    | add l r ihl ihr | dif l r ihl ihr | mul l r ihl ihr | div l r ihl ihr | mod l r ihl ihr =>
      exact fun h => ⟨ihl h.1, ihr h.2⟩
  intro g
  induction g with
  | and l r ihl ihr | or l r ihl ihr => exact fun h => ⟨ihl h.1, ihr h.2⟩
  | le l r | ge l r | lt l r | gt l r | eq l r => exact fun h => ⟨ha h.1, ha h.2⟩
  | bool b => exact id

theorem apply_univ_local {d : Decls} (hd : d.InDim (dim F)) {g : BoolE}
    (hg : g.ClocksIn fun i => i ∈ d.clocks.map (·.2)) {z : F}
    (h : applyConstraints d g univ = .ok z) : Local (dim F) (d.clocks.map (·.2)) (den z) := by
  have hsub : ∀ i, i ∈ d.clocks.map (·.2) → 0 < i ∧ i < dim F := by
    intro i hi
    obtain ⟨p, hp, rfl⟩ := List.mem_map.1 hi
    exact hd p hp
  have := apply_codeSet d hd g univ z (hg.mono hsub) h
  rw [this, den_univ]
  refine Local.inter (fun v w _ hw _ _ => hw) (codeSet_local ?_ hg)
  intro p hp; exact List.mem_map.2 ⟨p, hp, rfl⟩

/-- Replace the values of some clocks by those of another valuation. -/
noncomputable def mix (C : List Nat) (v w : Val) : Val :=
  open Classical in fun i => if i ∈ C then v i else w i

theorem mix_in {C : List Nat} {v w : Val} {i : Nat} (h : i ∈ C) : mix C v w i = v i := by
  simp [mix, h]
theorem mix_out {C : List Nat} {v w : Val} {i : Nat} (h : i ∉ C) : mix C v w i = w i := by
  simp [mix, h]
theorem mix_valid {n : Nat} {C : List Nat} {v w : Val} (hv : Valid n v) (hw : Valid n w) :
    Valid n (mix C v w) := by
  refine ⟨?_, fun i => ?_, fun i hi => ?_⟩ <;> unfold mix <;> split
  · exact hv.1
  · exact hw.1
  · exact hv.2.1 i
  · exact hw.2.1 i
  · exact hv.2.2 i hi
  · exact hw.2.2 i hi

/-- What holds of every transition of a system with clocks `C` and dimension `dim F`. -/
structure GoodTrans (C : List Nat) (t : Transition F) : Prop where
  upd : UpdatesOk t.updates (dim F)
  own : ∀ u ∈ t.updates, u.clock ∈ C
  guard : Local (dim F) C (den t.guard)
  inv : Local (dim F) C (InvSet t.target)

theorem GoodTrans.allowed {C : List Nat} {t : Transition F} (h : GoodTrans C t) :
    Local (dim F) C (den t.allowed) := by
  intro v v' hv hv' ha hm
  rw [mem_allowed_code h.upd] at hm ⊢
  obtain ⟨hg, w, hw, hi, hu, hn⟩ := hm
  refine ⟨h.guard v v' hv hv' ha hg, mix C w v', mix_valid hw hv', ?_, ?_, ?_⟩
  · exact h.inv w _ hw (mix_valid hw hv') (fun i hi => (mix_in hi).symm) hi
  · intro u hu'; rw [mix_in (h.own u hu')]; exact hu u hu'
  · intro i hi'
    by_cases hC : i ∈ C
    · rw [mix_in hC, ← ha i hC]; exact hn i hi'
    · rw [mix_out hC]

end Reveaal
