import Verif.Spec.Branches
/- What READ, DATA and RESTORE mean. -/
namespace LB.Spec

/-- The DATA items in a piece of code, in their order. -/
def items : List Inst → List CStr
  | [] => []
  | .data s :: is => s :: items is
  | _ :: is => items is

/-- The items of the stored program that READ has still to deliver. -/
def pending (vm : VM) : List CStr :=
  match vm.stored.bcode with
  | some b => items (b.inst.drop vm.programData)
  | none => []

/-- All items of the stored program. -/
def allItems (vm : VM) : List CStr :=
  match vm.stored.bcode with
  | some b => items b.inst
  | none => []

/-- The items of the stored program from a position of its code on. -/
def itemsFrom (vm : VM) (pc : Nat) : List CStr :=
  match vm.stored.bcode with
  | some b => items (b.inst.drop pc)
  | none => []

/-- READ takes its items from the stored program: a line typed without a number, if it is that which is being run, has
no DATA. -/
def ReadsProgram (vm : VM) : Prop :=
  vm.cs.code = some .immediate → ∀ b, vm.immediate.bcode = some b → b.hasData = false

/-- The line last typed without a number has no DATA. -/
def NoTypedData (vm : VM) : Prop := ∀ b, vm.immediate.bcode = some b → b.hasData = false

/-- The compiled program knows whether it has DATA items. -/
def DataKnown (vm : VM) : Prop := ∀ b, vm.stored.bcode = some b → b.hasData = false → items b.inst = []

/-- READ takes its items from the line typed without a number, which is being run and has DATA. -/
def ReadsTyped (vm : VM) : Prop :=
  vm.cs.code = some .immediate ∧ ∃ b, vm.immediate.bcode = some b ∧ b.hasData = true

/-- The items of the line typed without a number that READ has still to deliver. -/
def pendingTyped (vm : VM) : List CStr :=
  match vm.immediate.bcode with
  | some b => items (b.inst.drop vm.immediateData)
  | none => []

/-- What an instruction does to the items still to be delivered. -/
def deliver (vm : VM) (i : Inst) (rest : List CStr) : List CStr :=
  match i with
  | .readNum _ _ => rest.tail
  | .readStr _ _ => rest.tail
  | .restore => allItems vm
  | .restoreLine n =>
    match lineStart vm n with
    | some pc => itemsFrom vm pc
    | none => rest
  | _ => rest

/-- The instructions executed in `n` steps, and the machine after them. -/
inductive Runs (env : Env) : VM → List Inst → VM → Prop
  | nil (vm) : Runs env vm [] vm
  | step {vm i vm' is vm''} : At vm i → V.execute env vm = .ok () vm' → Runs env vm' is vm'' → Runs env vm (i :: is) vm''

end LB.Spec
