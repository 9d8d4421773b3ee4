import Verif.Model.Symbol
import Verif.Spec.Text
/- Vocabulary for claims about names. -/
namespace LB.Spec

/-- Whether a name of this kind can be meant by a name followed by a parenthesis (`paren`) or by one without. -/
def InClass (kind : SymKind) (paren : Bool) : Prop :=
  kind = .builtin ∨ (paren = false ∧ kind = .variable) ∨ (paren = true ∧ (kind = .array ∨ kind = .def_ ∨ kind = .unknown))

instance (k : SymKind) (b : Bool) : Decidable (InClass k b) := inferInstanceAs (Decidable (_ ∨ _))

/-- Entry `q` of the table has this name, up to case, and can be meant by it. -/
def Entry (st : SymTab) (name : CStr) (paren : Bool) (q : Nat) : Prop :=
  ∃ s, st.psym[q]? = some s ∧ _root_.Spec.SameIgnoringCase s.name name ∧ InClass s.kind paren

/-- The change does not concern the name. -/
def KeepsName (f : Symbol → Symbol) : Prop := ∀ s, (f s).name = s.name ∧ (f s).kind = s.kind

/-- The tables that any sequence of operations can build. -/
inductive Built : SymTab → Prop
  | new : Built newSymbolTable
  | insert {st} (name kind type defined) : Built st → Built (symInsert st name kind type defined).1
  | update {st} (q f) : Built st → KeepsName f → Built (symUpdate st q f)
  | kind {st} (q k) : Built st → Built (symUpdate st q (fun s => { s with kind := k }))
  | unknown {st} : Built st → Built (symMakeUnknownArray st)
  | clearValues {st} : Built st → Built (clearSymbolTableValues st)
  | clearNames {st} : Built st → Built (clearSymbolTableNames st)

end LB.Spec
