import Verif.Model.Failures
import Verif.Model.ClockReduction

/-!
# What is reported about failed determinism and consistency checks, and about actions that do not fit

Models the names of systems (`src/TransitionSystems/transition_system.rs`, `compiled_component.rs`), the rest of
`src/System/query_failures.rs` and the conversion of these failures in `src/ProtobufServer/proto_conversions.rs`.
-/

namespace Reveaal
open ZoneLib

section
variable {F : Type} [ZoneLib F]

omit [ZoneLib F] in
/-- `to_string`: compiled_component.rs:209-211, transition_system.rs:144-156 -/
def Sys.name : Sys F → String
  | comp c => c.name
  | composition l r _ _ _ _ _ => "(" ++ l.name ++ " || " ++ r.name ++ ")"
  | conjunction l r _ _ => "(" ++ l.name ++ " && " ++ r.name ++ ")"
  | quotient t s _ _ _ _ => "(" ++ t.name ++ " \\\\ " ++ s.name ++ ")"

/-! ## Determinism and consistency -/

/-- `check_determinism` of a system (see `Sys.checkDet`) with the system the failure is about: the check of a composed
system calls the checks of its operands and passes their failures on (common.rs:105-109, quotient.rs:362-365). -/
def Sys.detFailure (ord : List Bool → Orders) (fuel : Nat) : Sys F → Res (Option (Sys F × DetFailure F))
  | comp c => do
    .ok ((← checkDeterminism (Sys.comp c).ts (ord []).acts fuel).map fun f => (Sys.comp c, f))
  | composition l r _ _ _ _ _ => do
    match ← l.detFailure (fun p => ord (false :: p)) fuel with
    | some f => .ok (some f)
    | none => r.detFailure (fun p => ord (true :: p)) fuel
  | conjunction l r _ _ => do
    match ← l.detFailure (fun p => ord (false :: p)) fuel with
    | some f => .ok (some f)
    | none => r.detFailure (fun p => ord (true :: p)) fuel
  | quotient t s _ _ _ _ => do
    match ← t.detFailure (fun p => ord (false :: p)) fuel with
    | some f => .ok (some f)
    | none => s.detFailure (fun p => ord (true :: p)) fuel

/-- `check_local_consistency` of a system (see `Sys.checkCons`) with the system the failure is about
(common.rs:111-115, quotient.rs:367-370). -/
def Sys.consFailure (ord : List Bool → Orders) (fuel : Nat) : Sys F → Res (Option (Sys F × ConsFailure F))
  | comp c => do
    .ok ((← isLeastConsistent (Sys.comp c).ts (ord []).inputs (ord []).outputs fuel).map fun f => (Sys.comp c, f))
  | composition l r _ _ _ _ _ => do
    match ← l.consFailure (fun p => ord (false :: p)) fuel with
    | some f => .ok (some f)
    | none => r.consFailure (fun p => ord (true :: p)) fuel
  | conjunction l r _ _ => do
    match ← l.consFailure (fun p => ord (false :: p)) fuel with
    | some f => .ok (some f)
    | none => r.consFailure (fun p => ord (true :: p)) fuel
  | quotient t s _ _ _ _ => do
    match ← s.consFailure (fun p => ord (true :: p)) fuel with
    | some f => .ok (some f)
    | none => t.consFailure (fun p => ord (false :: p)) fuel

/-- transition_system.rs:122-125 `precheck_sys_rep` (see `Sys.precheck`) with the system the failure is about -/
def Sys.precheckFailure (ord : List Bool → Orders) (fuel : Nat) (s : Sys F) : Res (Option (Sys F × ConsFailure F)) := do
  match ← s.detFailure ord fuel with
  | some (p, f) => .ok (some (p, .notDeterministic f))
  | none => s.consFailure ord fuel

/-- query_failures.rs:496-502 `struct DeterminismFailure` -/
structure DetReport where
  system : String
  action : String
  isInput : Bool
  state : SpecificState

/-- query_failures.rs:504-518 `from_system_and_action` -/
def DetFailure.report (ord : List (String × Nat) → List (String × Nat)) (s : Sys F) (f : DetFailure F) : Res DetReport := do
  .ok ⟨s.name, f.action, s.inputs.contains f.action, ← SpecificState.ofState ord s f.state⟩

/-- query_failures.rs:423-440 `enum ConsistencyFailure` -/
inductive ConsReport where
  | noInitialState (system : String)
  | notDeterministic (f : DetReport)
  | inconsistentLoc (system : String) (state : SpecificState)
  | inconsistentFrom (system : String) (state : SpecificState)

/-- query_failures.rs:442-472 `no_initial_state`, `inconsistent` and `inconsistent_from`, with the conversion 682-686 -/
def ConsFailure.report (ord : List (String × Nat) → List (String × Nat)) (s : Sys F) : ConsFailure F → Res ConsReport
  | .noInitialState => .ok (.noInitialState s.name)
  | .notDeterministic f => do .ok (.notDeterministic (← f.report ord s))
  | .inconsistent st => do .ok (.inconsistentLoc s.name (← SpecificState.ofState ord s st))
  | .inconsistentFrom st => do .ok (.inconsistentFrom s.name (← SpecificState.ofState ord s st))

/-- The message `DeterminismFailure` with its `StateAction` (proto_conversions.rs:208-215) -/
structure ProtoDetFailure where
  system : String
  action : String
  state : Option ProtoState

/-- proto_conversions.rs:208-215 `From<DeterminismFailure>`, with 173-178 `state_action_to_proto` -/
def DetReport.toProto (x : DetReport) : Res ProtoDetFailure := do
  .ok ⟨x.system, x.action, some (← x.state.toProto)⟩

/-- The message `ConsistencyFailure`: its oneof `failure` (proto_conversions.rs:217-241) -/
inductive ProtoConsCause where
  | noInitialState (code : Int)
  | determinism (f : ProtoDetFailure)
  | failureState (state : ProtoState)

/-- The message `ConsistencyFailure` (proto_conversions.rs:217-241) -/
structure ProtoConsFailure where
  system : String
  failure : Option ProtoConsCause

/-- proto_conversions.rs:217-241 `From<ConsistencyFailure>` -/
def ConsReport.toProto : ConsReport → Res ProtoConsFailure
  | .noInitialState system => .ok ⟨system, some (.noInitialState 0)⟩
  | .notDeterministic f => do
    let df ← f.toProto
    .ok ⟨df.system, some (.determinism df)⟩
  | .inconsistentLoc system state | .inconsistentFrom system state => do
    .ok ⟨system, some (.failureState (← state.toProto))⟩

/-! ## Actions -/

/-- query_failures.rs:92-97 `struct ActionSet` -/
structure ActionSet where
  system : String
  actions : List String
  isInput : Bool

/-- query_failures.rs:269-275 `enum ActionFailure`; `subset` tells `NotSubset` from `NotDisjoint` -/
structure ActionFailure where
  subset : Bool
  left : ActionSet
  right : ActionSet

/-- `==` of two hash sets (std, used at query_failures.rs:282-286, 328-332) -/
def setEq (a b : List String) : Bool := (a.all fun x => b.contains x) && b.all fun x => a.contains x

omit [ZoneLib F] in
/-- query_failures.rs:277-300 `not_disjoint` and 323-346 `not_subset`.  The `debug_assert`s are panics. -/
def ActionFailure.between (subset : Bool) (s1 : Sys F) (a1 : List String) (s2 : Sys F) (a2 : List String) : Res ActionFailure :=
  let i1 := setEq s1.inputs a1
  let i2 := setEq s2.inputs a2
  if !(i1 || setEq s1.outputs a1) then .error (.panic "assertion failed: is_input1 || sys1.get_output_actions() == actions1")
  else if !(i2 || setEq s2.outputs a2) then .error (.panic "assertion failed: is_input2 || sys2.get_output_actions() == actions2")
  else .ok ⟨subset, ⟨s1.name, a1, i1⟩, ⟨s2.name, a2, i2⟩⟩

/-- query_failures.rs:302-321 `not_disjoint_IO` -/
def ActionFailure.inOut (name : String) (inputs outputs : List String) : ActionFailure :=
  ⟨false, ⟨name, inputs, true⟩, ⟨name, outputs, false⟩⟩

/-- compiled_component.rs:46-49: the failure a component is refused with because of its actions, if it is -/
def Component.actionFailure (c : Component) : Option ActionFailure :=
  if !(setDisjoint (c.specificActions .input) (c.specificActions .output)) then
    some (ActionFailure.inOut c.name (c.specificActions .input) (c.specificActions .output))
  else none

omit [ZoneLib F] in
/-- composition.rs:39-45: the failure a composition is refused with because of its actions, if it is -/
def Sys.compositionFailure (left right : Sys F) : Option (Res ActionFailure) :=
  if !(setDisjoint left.outputs right.outputs) then some (ActionFailure.between false left left.outputs right right.outputs)
  else none

omit [ZoneLib F] in
/-- conjunction.rs:35-48: the same for a conjunction -/
def Sys.conjunctionFailure (left right : Sys F) : Option (Res ActionFailure) :=
  if !(setDisjoint left.inputs right.outputs) then some (ActionFailure.between false left left.inputs right right.outputs)
  else if !(setDisjoint left.outputs right.inputs) then some (ActionFailure.between false left left.outputs right right.inputs)
  else none

omit [ZoneLib F] in
/-- quotient.rs:42-48: the same for a quotient -/
def Sys.quotientFailure (T S : Sys F) : Option (Res ActionFailure) :=
  if !(setDisjoint S.outputs T.inputs) then some (ActionFailure.between false S S.outputs T T.inputs)
  else none

omit [ZoneLib F] in
/-- refine.rs:432-453: the failure of a refinement because of the actions of the two sides, if there is one -/
def Sys.refinementFailure (s t : Sys F) : Option (Res ActionFailure) :=
  if !(setDisjoint s.inputs t.outputs) then some (ActionFailure.between false s s.inputs t t.outputs)
  else if !(setDisjoint t.inputs s.outputs) then some (ActionFailure.between false t t.inputs s s.outputs)
  else if !(s.inputs.all fun a => t.inputs.contains a) then some (ActionFailure.between true s s.inputs t t.inputs)
  else if !(t.outputs.all fun a => s.outputs.contains a) then some (ActionFailure.between true t t.outputs s s.outputs)
  else none

/-- The message `ActionFailure` (proto_conversions.rs:190-206) -/
structure ProtoActionFailure where
  failure : Int
  sets : List ActionSet

/-- proto_conversions.rs:180-206 `From<ActionSet>` and `From<ActionFailure>`; `ord` is the iteration order of the hash
sets -/
def ActionFailure.toProto (ord : List String → List String) (x : ActionFailure) : ProtoActionFailure :=
  ⟨if x.subset then 0 else 1, [{ x.left with actions := ord x.left.actions }, { x.right with actions := ord x.right.actions }]⟩

/-! ## Names -/

omit [ZoneLib F] in
/-- query_failures.rs:57-62 `System::refinement`: the name of a refinement in its failures -/
def refinementName (s t : Sys F) : String := s.name ++ " <= " ++ t.name

/-- query_failures.rs:10-21 `enum SystemType`, without `Refinement` and `Simple`, with 23-35 `operator` -/
def CompType.operator : CompType → String
  | .quotient => "\\\\"
  | .composition => "||"
  | .conjunction => "&&"
  | _ => ""

omit [ZoneLib F] in
/-- query_failures.rs:70-85 `from_composite_system`: the name of a system that is refused -/
def refusedName (s t : Sys F) (op : CompType) : String := s.name ++ " " ++ op.operator ++ " " ++ t.name

end
end Reveaal
