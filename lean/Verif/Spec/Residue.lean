import Verif.Model.Session
/- What is meant by the residue of earlier statements (C43). -/
namespace LB.Spec

/-- The machine without values left on the evaluation stacks. -/
def emptied (vm : VM) : VM := { vm with stack := [], strstack := [] }

/-- Once the statement is compiled there are at most 65536 names. -/
def FewNames (vm : VM) (line : CStr) : Prop :=
  ∀ vm' st bc, ensureProgramCompiled { vm with immediate := {} } = .ok (true, vm') →
    parseSource (wrapSourceText line) vm'.st false = .ok (some bc, st) → st.psym.length ≤ 65536

/-- Statements typed one after the other, with something done before each: how they ended, and the machine after them. -/
def statements (before : VM → VM) (env : Env) (brk : Nat → Bool) (n : Nat) : List CStr → VM → Outcome (List (Option RunEnd) × VM)
  | [], vm => .ok ([], vm)
  | line :: lines, vm =>
    match runImmediate env brk n (before vm) line with
    | .halt h => .halt h
    | .ok (e, vm') =>
      match statements before env brk n lines vm' with
      | .halt h => .halt h
      | .ok (es, vm'') => .ok (e :: es, vm'')

/-- An evaluation stack was full. -/
def StackFull (e : Option RunEnd) : Prop := ∃ i, e = some ⟨some .numOverflow, i⟩ ∨ e = some ⟨some .strOverflow, i⟩

end LB.Spec
