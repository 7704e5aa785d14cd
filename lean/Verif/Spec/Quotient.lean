import Verif.Spec.Semantics

/-!
# The rules of the quotient, one valuation at a time

`T \\ S` stands for the most liberal system that, put in parallel with `S`, refines `T`.
-/

namespace Reveaal
open ZoneLib
variable {F : Type} [ZoneLib F]

/-- `s` can perform `a` from `loc` and `v`, and `v` is allowed in `loc`. -/
def Sys.CanDo (s : Sys F) (loc : LocTree F) (v : Val) (a : String) : Prop :=
  v ∈ InvSet loc ∧ ∃ l' v', s.ts.Act loc v a l' v'

/-- The moves of the quotient `T \\ S` from the pair `lt`, `ls` with valuation `v`, where `clock` is the
clock of the quotient and `fresh` its generated input. -/
inductive QuotRule (T S : Sys F) (clock : Nat) (fresh : String) (lt ls : LocTree F) (v : Val)
    (a : String) : LocTree F → Val → Prop
  /-- both know the action and both perform it -/
  | joint {lt' ls' : LocTree F} {vt vs v' : Val} (ht : v ∈ InvSet lt) (hs : v ∈ InvSet ls)
      (mt : T.ts.Act lt v a lt' vt) (ms : S.ts.Act ls v a ls' vs)
      (ct : ∀ i ∈ T.clocks, v' i = vt i) (cs : ∀ i ∈ S.clocks, v' i = vs i)
      (cr : ∀ i, i ∉ T.clocks → i ∉ S.clocks → v' i = v i) :
      QuotRule T S clock fresh lt ls v a (LocTree.merge lt' ls') v'
  /-- only `S` knows the action -/
  | onlyS {ls' : LocTree F} {vs : Val} (hn : T.hasAction a = false) (hs : v ∈ InvSet ls)
      (ms : S.ts.Act ls v a ls' vs) : QuotRule T S clock fresh lt ls v a (LocTree.merge lt ls') vs
  /-- only `T` knows the action -/
  | onlyT {lt' : LocTree F} {vt : Val} (hn : S.hasAction a = false) (ht : v ∈ InvSet lt)
      (hs : v ∈ InvSet ls) (mt : T.ts.Act lt v a lt' vt) :
      QuotRule T S clock fresh lt ls v a (LocTree.merge lt' ls) vt
  /-- `S` has left its invariant, or is asked for an output it cannot produce: anything goes -/
  | universal (h : v ∉ InvSet ls ∨ (a ∈ S.outputs ∧ ¬ S.CanDo ls v a)) :
      QuotRule T S clock fresh lt ls v a LocTree.universalLoc v
  /-- `S` produces an output that `T` forbids -/
  | errorOutput (hs : a ∈ S.outputs) (ht : a ∈ T.outputs) (h1 : S.CanDo ls v a)
      (h2 : ¬ T.CanDo lt v a) :
      QuotRule T S clock fresh lt ls v a (LocTree.errorLoc clock) (assign v clock 0)
  /-- `T` has left its invariant while `S` has not -/
  | errorDelay (h : a = fresh) (ht : v ∉ InvSet lt) (hs : v ∈ InvSet ls) :
      QuotRule T S clock fresh lt ls v a (LocTree.errorLoc clock) (assign v clock 0)

end Reveaal
