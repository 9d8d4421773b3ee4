import Verif.Proofs.Vm
import Verif.Spec.Machine
/- Executing one instruction. -/
namespace LB
open Spec
namespace V

theorem curBcode_at {vm : VM} {i : Inst} (h : At vm i) :
    ∃ b, curBcode vm = .ok b vm ∧ b.inst[vm.cs.pc]? = some i := by
  obtain ⟨r, b, h1, h2, h3⟩ := h
  refine ⟨b, ?_, h3⟩
  simp [curBcode, h1, h2]

theorem execute_at {vm : VM} {i : Inst} (env : Env) (h : At vm i) :
    execute env vm = match exec env i vm with
      | .ok .ret vm' => .ok () vm'
      | .ok .brk vm' => .ok () { vm' with cs := following vm'.cs }
      | .err e vm' => .err e vm'
      | .halt h => .halt h := by
  obtain ⟨b, hb, hi⟩ := curBcode_at h
  simp only [execute, bind_apply, hb, get_apply, hi]
  cases exec env i vm with
  | ok f vm' => cases f <;> rfl
  | err e vm' => rfl
  | halt h => rfl

theorem sym_ok {vm : VM} {id : Nat} {s : Symbol} (h : vm.st.psym[id]? = some s) : sym id vm = .ok s vm := by
  simp [sym, symbolAt, h]

end V

theorem symUpdate_same {st : SymTab} {id : Nat} {f : Symbol → Symbol} {s : Symbol}
    (h : st.psym[id]? = some s) : (symUpdate st id f).psym[id]? = some (f s) := by
  simp [symUpdate, h]

theorem symUpdate_other (st : SymTab) (id j : Nat) (f : Symbol → Symbol) (h : j ≠ id) :
    (symUpdate st id f).psym[j]? = st.psym[j]? := by
  simp [symUpdate, Ne.symm h]

theorem symUpdate_sameBut (st : SymTab) (id : Nat) (f : Symbol → Symbol) : SameBut id st (symUpdate st id f) :=
  ⟨rfl, rfl, fun j hj => symUpdate_other st id j f hj⟩

end LB
