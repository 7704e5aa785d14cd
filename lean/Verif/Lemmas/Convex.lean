import Verif.Lemmas.SysGood
import Verif.Spec.Refinement
import Mathlib.Tactic.Linarith

/-!
# Invariants without disjunction are convex in time

The hypothesis `TimeConvex` of C16 follows from the text of the components: no `||` in an invariant.
-/

namespace Reveaal
open ZoneLib Arith
variable {F : Type} [ZoneLib F]

/-- The expression has no disjunction. -/
def BoolE.NoOr : BoolE → Prop
  | .and l r => l.NoOr ∧ r.NoOr
  | .or _ _ => False
  | _ => True

/-- The difference of two clocks after a delay between two others lies between their differences. -/
theorem delay_between (n : Nat) (v : Val) {d e : ℝ} (h0 : 0 ≤ d) (h : d ≤ e) (i j : Nat) :
    (v i - v j ≤ delay n v d i - delay n v d j ∧
      delay n v d i - delay n v d j ≤ delay n v e i - delay n v e j) ∨
    (delay n v d i - delay n v d j ≤ v i - v j ∧
      delay n v e i - delay n v e j ≤ delay n v d i - delay n v d j) := by
  unfold delay
  by_cases hi : 0 < i ∧ i < n <;> by_cases hj : 0 < j ∧ j < n
  · simp only [hi, hj, and_self, if_true]; left; constructor <;> linarith
  · simp only [hi, hj, and_self, if_true, if_false]; left; constructor <;> linarith
  · simp only [hi, hj, and_self, if_true, if_false]; right; constructor <;> linarith
  · simp only [hi, hj, if_false]; left; constructor <;> linarith

theorem codeSet_convex (n : Nat) (decls : Decls) {d e : ℝ} (h0 : 0 ≤ d) (h : d ≤ e) (v : Val) :
    ∀ g : BoolE, g.NoOr → v ∈ codeSet decls g → delay n v e ∈ codeSet decls g →
      delay n v d ∈ codeSet decls g := by
  have key : ∀ (l r : Arith) (mk : Int → Ineq), (mk = .LE ∨ mk = .LS) → v ∈ cmpSet decls l r mk →
      delay n v e ∈ cmpSet decls l r mk → delay n v d ∈ cmpSet decls l r mk := by
    intro l r mk hmk h1 h2 i j c hc
    have h1 := h1 i j c hc
    have h2 := h2 i j c hc
    rcases hmk with rfl | rfl <;> simp only [Ineq.Sat] at * <;>
      rcases delay_between n v h0 h i j with ⟨_, _⟩ | ⟨_, _⟩ <;> linarith
  intro g
  induction g with
  | and l r ihl ihr => exact fun hg h1 h2 => ⟨ihl hg.1 h1.1 h2.1, ihr hg.2 h1.2 h2.2⟩
  | or l r => exact fun hg => hg.elim
  | le l r => exact fun _ => key l r _ (.inl rfl)
  | ge l r => exact fun _ => key r l _ (.inl rfl)
  | lt l r => exact fun _ => key l r _ (.inr rfl)
  | gt l r => exact fun _ => key r l _ (.inr rfl)
  | eq l r =>
    intro _ h1 h2 i j c hc
    have h1 := h1 i j c hc
    have h2 := h2 i j c hc
    rcases delay_between n v h0 h i j with ⟨_, _⟩ | ⟨_, _⟩ <;> linarith
  | bool b => exact fun _ h1 _ => h1

namespace Sys

/-- Every location of the system has an invariant that is convex in time. -/
def ConvexInvs (s : Sys F) : Prop := ∀ l, s.IsLoc l → TimeConvex l

theorem convex_comp {order : List (LocId × LocTree F) → List (LocId × LocTree F)} {c : Component}
    {ins outs : List String} {id : Nat} {x : CompComp F} (hc : c.Ok (dim F))
    (ho : ∀ l, (order l).Perm l) (h : CompComp.compileWith order c ins outs id = .ok x)
    (hg : ∀ l ∈ c.locations, ∀ g, l.invariant = some g → g.NoOr) : (Sys.comp x).ConvexInvs := by
  unfold CompComp.compileWith at h
  split at h
  · cases h
  obtain ⟨locs0, h1, h⟩ := bind_ok h
  obtain ⟨edges, h2, h⟩ := bind_ok h
  cases h
  obtain ⟨_, b2, _⟩ := buildLocations_spec h1
  rintro _ ⟨p, hp, rfl⟩ v d e hv hm h0 hde hme
  obtain ⟨_, l, hl, hs⟩ := b2 p ((ho locs0).mem_iff.1 hp)
  obtain ⟨inv, hp2, hn, hsm⟩ := simple_spec hs
  intro i hi
  have hv' := delay_valid hv h0
  cases hli : l.invariant with
  | none => rw [hp2, hn hli] at hi; cases hi
  | some g =>
    obtain ⟨z, hz, rfl⟩ := hsm g hli
    have hdim : g.InDim (dim F) := by
      refine BoolE.ClocksIn.mono ?_ (hc.invs l hl g hli)
      intro i hi
      obtain ⟨q, hq, rfl⟩ := List.mem_map.1 hi
      exact hc.decls q hq
    have hden := apply_codeSet c.decls hc.decls g univ z hdim hz
    have h1 := hm z (by rw [hp2]; rfl)
    have h2 := hme z (by rw [hp2]; rfl)
    rw [hp2] at hi; cases hi
    rw [hden] at h1 h2 ⊢
    exact ⟨by rw [den_univ]; exact hv', codeSet_convex _ _ h0 hde v g (hg l hl g hli) h1.2 h2.2⟩

theorem convex_composition {l r s : Sys F} (hl : l.ConvexInvs) (hr : r.ConvexInvs)
    (h : newComposition l r = .ok s) : s.ConvexInvs := by
  obtain ⟨_, rfl⟩ := newComposition_eq h
  rintro x ⟨a, b, ha, hb, hx⟩ v d e hv hm h0 hde hme
  rw [mem_compose_inv hx] at *
  exact ⟨hl a ha v d e hv hm.1 h0 hde hme.1, hr b hb v d e hv hm.2 h0 hde hme.2⟩

theorem convex_conjunction {l r s : Sys F} (hl : l.ConvexInvs) (hr : r.ConvexInvs)
    (h : newConjunctionUnchecked l r = .ok s) : s.ConvexInvs := by
  obtain ⟨_, _, rfl⟩ := newConjunction_eq h
  rintro x ⟨a, b, ha, hb, hx⟩ v d e hv hm h0 hde hme
  rw [mem_compose_inv hx] at *
  exact ⟨hl a ha v d e hv hm.1 h0 hde hme.1, hr b hb v d e hv hm.2 h0 hde hme.2⟩

theorem convex_quotient {t s x : Sys F} {clock : Nat} (h0 : 0 < clock) (hn : clock < dim F)
    (h : newQuotientUnchecked t s clock = .ok x) : x.ConvexInvs := by
  obtain ⟨_, rfl⟩ := newQuotient_eq h
  rintro x (⟨a, b, _, _, rfl⟩ | rfl | rfl) v d e hv hm hd hde hme
  · intro i hi; cases hi
  · intro i hi; cases hi
  · rw [invSet_errorLoc h0 hn] at *
    refine ⟨delay_valid hv hd, ?_⟩
    have h1 := hm.2
    have h2 := hme.2
    unfold delay at *
    simp only [h0, hn, and_self, if_true, h1] at *
    linarith

end Sys
end Reveaal
