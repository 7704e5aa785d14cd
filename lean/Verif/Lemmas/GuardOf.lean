import Verif.Props.C03
import Verif.Lemmas.Compile

/-!
# Generated guards, from the fact that generating them succeeded
-/

namespace Reveaal
open ZoneLib

theorem varFromNaming_named {naming : List (String × Nat)} {i : Nat} {x : Arith}
    (h : varFromNaming (invertNaming naming) i = .ok x) : i ∈ naming.map Prod.snd := by
  unfold varFromNaming at h
  cases hl : (invertNaming naming).lookup i with
  | none => rw [hl] at h; cases h
  | some s =>
    obtain ⟨p, hp, he⟩ := List.mem_map.1 (lookup_mem hl)
    cases he
    exact List.mem_map.2 ⟨p, List.mem_reverse.1 hp, rfl⟩

theorem fromConstraint_named {naming : List (String × Nat)} {k : Constr} {g : BoolE}
    (h : fromConstraint (invertNaming naming) k = .ok g) : k.Named naming := by
  obtain ⟨i, j, q⟩ := k
  unfold fromConstraint at h
  match i, j with
  | 0, 0 => cases h
  | 0, j + 1 =>
    obtain ⟨x, hx, _⟩ := bind_ok h
    exact ⟨by simp, fun h => absurd rfl h, fun _ => varFromNaming_named hx⟩
  | i + 1, 0 =>
    obtain ⟨x, hx, _⟩ := bind_ok h
    exact ⟨by simp, fun _ => varFromNaming_named hx, fun h => absurd rfl h⟩
  | i + 1, j + 1 =>
    obtain ⟨x, hx, h⟩ := bind_ok h
    obtain ⟨y, hy, _⟩ := bind_ok h
    exact ⟨by simp, fun _ => varFromNaming_named hx, fun _ => varFromNaming_named hy⟩

theorem fromConjLoop_named {naming : List (String × Nat)} : ∀ {c : Conj} {acc g : Option BoolE},
    fromConjLoop (invertNaming naming) acc c = .ok g → ∀ k ∈ c, k.Named naming
  | [], _, _, _ => by simp
  | k :: c, acc, g, h => by
    rw [fromConjLoop] at h
    obtain ⟨e, he, h⟩ := bind_ok h
    have hc : ∀ k ∈ c, k.Named naming := by
      cases acc with
      | none => exact fromConjLoop_named h
      | some r => exact fromConjLoop_named h
    intro k' hk'
    rcases List.mem_cons.1 hk' with rfl | hk'
    · exact fromConstraint_named he
    · exact hc k' hk'

theorem fromConjunction_named {naming : List (String × Nat)} {c : Conj} {g : Option BoolE}
    (h : fromConjunction (invertNaming naming) c = .ok g) : ∀ k ∈ c, k.Named naming := by
  unfold fromConjunction at h
  split at h
  · simp
  · obtain ⟨e, he, _⟩ := bind_ok h
    intro k hk
    rw [List.mem_singleton.1 hk]
    exact fromConstraint_named he
  · exact fromConjLoop_named h

theorem fromDisjLoop_means {naming : List (String × Nat)} (hg : GoodNaming naming)
    (ints : List (String × Int)) : ∀ (D : Disj) (acc g : Option BoolE) (P : Val → Prop),
    (match acc with | none => D ≠ [] ∧ ∀ v, ¬ P v | some e => Means ⟨ints, naming⟩ (some e) P) →
    fromDisjLoop (invertNaming naming) acc D = .ok g →
      Means ⟨ints, naming⟩ g (fun v => P v ∨ Disj.Sat D v)
  | [], acc, g, P, ha, h => by
    cases acc with
    | none => exact absurd rfl ha.1
    | some e =>
      cases h
      exact ⟨ha.1, fun v hv => by simpa [Disj.Sat] using ha.2 v hv⟩
  | c :: D, acc, g, P, ha, h => by
    rw [fromDisjLoop] at h
    obtain ⟨e, h1, h⟩ := bind_ok h
    have he := (fromConjunction_spec hg ints c (fromConjunction_named h1)).of_ok h1
    cases e with
    | none =>
      have := he.2 rfl
      subst this
      cases h
      exact ⟨by rintro _ ⟨⟩, fun v _ => by simp [HoldsOpt, Disj.Sat, Conj.Sat]⟩
    | some e =>
      have he1 := he.1.1 e rfl
      cases acc with
      | none =>
        have hg' := fromDisjLoop_means hg ints D (some e) g (Conj.Sat c) he.1 h
        refine ⟨hg'.1, fun v hv => ?_⟩
        rw [hg'.2 v hv]
        simp [Disj.Sat, ha.2 v]
      | some r =>
        have hg' := fromDisjLoop_means hg ints D (some (.or r e)) g (fun v => P v ∨ Conj.Sat c v) ⟨?_, fun v hv => ?_⟩ h
        · refine ⟨hg'.1, fun v hv => ?_⟩
          rw [hg'.2 v hv]
          simp [Disj.Sat]; tauto
        · rintro _ ⟨⟩
          exact ⟨⟨(ha.1 r rfl).1, he1.1⟩, fun n => ⟨(ha.1 r rfl).2 n, he1.2 n⟩⟩
        · have h1 := ha.2 v hv
          have h2 := he.1.2 v hv
          simp only [HoldsOpt, Holds] at h1 h2 ⊢
          rw [h1, h2]

/-- A guard that was generated means the set it was generated from. -/
theorem fromDisjunction_means {naming : List (String × Nat)} (hg : GoodNaming naming)
    (ints : List (String × Int)) {D : Disj} {g : Option BoolE} (h : fromDisjunction D naming = .ok g) :
    Means ⟨ints, naming⟩ g (Disj.Sat D) := by
  unfold fromDisjunction at h
  split at h
  · cases h
    exact ⟨by rintro _ ⟨⟩; exact ⟨trivial, fun _ => trivial⟩, fun v _ => by simp [HoldsOpt, Holds, Disj.Sat]⟩
  · next c =>
    have hg' := (fromConjunction_spec hg ints c (fromConjunction_named h)).of_ok h
    refine ⟨hg'.1.1, fun v hv => ?_⟩
    rw [hg'.1.2 v hv]; simp [Disj.Sat]
  · next h1 h2 =>
    have hg' := fromDisjLoop_means hg ints D none g (fun _ => False) ⟨h1, fun _ h => h⟩ h
    refine ⟨hg'.1, fun v hv => ?_⟩
    rw [hg'.2 v hv]; simp

variable {F : Type} [ZoneLib F]

/-- The guard generated from a federation, applied to everything, gives the federation back. -/
theorem generated_exact {naming : List (String × Nat)} (hg : GoodNaming naming) (hdim : ∀ p ∈ naming, p.2 < dim F)
    {z z' : F} {g : Option BoolE} (h : fromDisjunction (minimal z) naming = .ok g)
    (h' : applyOpt ⟨[], naming⟩ g univ = .ok z') : den z' = den z := by
  have hm := fromDisjunction_means hg [] h
  have hv : {v | Valid (dim F) v ∧ HoldsOpt ⟨[], naming⟩ v g} = den z := by
    rw [← den_minimal z]; ext v
    exact and_congr_right fun hv => hm.2 v hv.1
  rw [← hv]
  cases g with
  | none =>
    cases h'
    rw [den_univ]; ext v; simp [HoldsOpt]
  | some e =>
    have hgood := hm.1 e rfl
    have := (C01_guard_exact_partial (F := F) ⟨[], naming⟩
        (fun p hp => ⟨hg.pos p hp, hdim p hp⟩) e (hgood.2 _) hgood.1 univ)
    rw [OkOrOvf.of_ok this h', den_univ]
    rfl

end Reveaal
