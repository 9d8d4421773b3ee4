import Verif.Proofs.Listed
import Verif.Proofs.Reaches
import Verif.Proofs.Symbols
import Verif.Proofs.Print
import Verif.Proofs.Frame
/- Steps of the machine through the code of a program. -/
namespace LB
open LB.Spec _root_.Spec

/-- Nothing but the stacks and values not given yet changes, and execution goes on elsewhere. -/
def Elsewhere (a b : VM) : Prop := OnlyReads { a with cs := b.cs, fn := b.fn, defCode := b.defCode } b

/-- What is left after an error in an expression. -/
structure Given (a b : VM) : Prop where
  stored : b.stored = a.stored
  stopped : b.stopped = a.stopped
  out : b.world.out = a.world.out
  stdin : b.world.stdin = a.world.stdin
  input : b.input = a.input

/-- The names in a running program: those of functions stand for them. -/
structure Kinds (r : Nat × Nat) (st : SymTab) (fn : FnState) (F : Src.Fns) : Prop where
  known : ∀ s ∈ st.psym, s.kind ≠ .unknown
  idle : fn.codeState.code = none
  functions : Functional r.1 r.2 st F

/-- The code of an expression, where it stands. -/
theorem eval {env : Env} {vm : VM} {r : Nat × Nat} {F : Src.Fns} (hw : WellNamed vm.st) (hl : vm.st.psym.length ≤ 65536) (hu : Kinds r vm.st vm.fn F) {t : Ty} {e : Expr t} {c : List Inst}
    (h : Postfix vm.st e c) (h1 : vm.stack.length + e.nums + r.1 ≤ maxNumStack) (h2 : vm.strstack.length + e.strs + r.2 ≤ maxStrStack) (hs : vm.stopped = false)
    (hd : vm.cs.code = some .stored) (hc : ∀ j i, c[j]? = some i → instAt vm (vm.cs.pc + j) = some i) (hn : ∃ i, instAt vm (vm.cs.pc + c.length) = some i) :
    (∀ x s, Src.meaning env F e (storeOf vm) = .ok x s →
      ∃ n vm', Travels env vm n vm' ∧ Elsewhere vm vm' ∧ vm'.fn.codeState.code = none ∧ vm'.cs = { vm.cs with pc := vm.cs.pc + c.length } ∧
        (vm'.stack, vm'.strstack) = pushed x vm ∧ storeOf vm' = s) ∧
    (∀ er s, Src.meaning env F e (storeOf vm) = .error er s →
      ∃ n m vm', Travels env vm n m ∧ m.stopped = false ∧ V.execute env m = .err er vm' ∧ Given vm vm' ∧ storeOf vm' = s) := by
  have hy := yields_postfix (env := env) (base := vm) hw hl hu.known h (fun nm _ => handles_reach hw hl hu.known hu.functions nm) (vm := vm) (OnlyReads.refl vm) h1 h2
  have hb0 : V.over (standing vm vm.cs.pc vm.fn vm.defCode) vm = vm := by simp [V.over, standing]
  refine ⟨fun x s hv => ?_, fun er s hv => ?_⟩
  · unfold Yields Gives at hy
    rw [show Expr.evalBy env (Src.reach env F) e (storeOf vm) = _ from hv] at hy
    obtain ⟨w, hw1, hw2, hw3, hw4⟩ := hy
    obtain ⟨n, fn', dc', k1, k⟩ := (path hs hd hw1 (postfix_computing h) hu.idle (OnlyReads.refl vm) hc hn).1 w rfl
    rw [hb0] at k
    refine ⟨n, _, k, ⟨?_, hw2.names, hw2.syms⟩, k1, rfl, by simpa [V.over, standing] using hw4, (storeOf_world rfl rfl).trans hw3⟩
    have := hw2.rest
    simp only [V.over, standing, List.append_nil, Option.map_some, Option.getD_some]
    rw [this]
  · unfold Yields Gives at hy
    rw [show Expr.evalBy env (Src.reach env F) e (storeOf vm) = _ from hv] at hy
    obtain ⟨w, hw1, hw2, hw3⟩ := hy
    obtain ⟨n, m, o, k1, k2, k3⟩ := (path hs hd hw1 (postfix_computing h) hu.idle (OnlyReads.refl vm) hc hn).2 er w rfl
    rw [hb0] at k1
    unfold Values at hw2
    refine ⟨n, m, _, k1, k2, k3, ⟨?_, ?_, ?_, ?_, ?_⟩, (storeOf_world rfl rfl).trans hw3⟩
    · show w.stored = _; rw [hw2]
    · show w.stopped = _; rw [hw2]
    · show w.world.out = _; rw [hw2]
    · show w.world.stdin = _; rw [hw2]
    · show w.input = _; rw [hw2]

/-- Variables that hold a string are defined; arrays that are defined are there. -/
structure TidySym (s : Symbol) : Prop where
  held : s.str.isSome = true → s.kind = .variable ∧ s.defined = true ∧ s.type = .str
  numarr : s.numarr.isSome = true ↔ s.kind = .array ∧ s.type = .num ∧ s.defined = true
  strarr : s.strarr.isSome = true ↔ s.kind = .array ∧ s.type = .str ∧ s.defined = true
  unknown : s.kind = .unknown → s.defined = false

theorem nameable_tidy : Nameable TidySym where
  new _ _ _ _ _ := ⟨fun h => (by cases h), by simp, by simp, fun _ => rfl⟩
  known s k h hk hb := by
    have hd := h.unknown hk
    refine ⟨fun hs => ?_, ?_, ?_, fun _ => hd⟩
    · have := h.held hs; rw [hk] at this; exact absurd this.1 (by decide)
    · have := h.numarr; simp_all
    · have := h.strarr; simp_all

theorem Spec.Seen.tidy {s t : Symbol} (h : Seen s t) (hs : TidySym s) : TidySym t := by
  obtain ⟨h1, h2, h3, h4⟩ := hs
  cases h <;> constructor <;> simp_all

/-- Reading variables leaves them tidy. -/
theorem onlyReads_tidy {a b : VM} (h : OnlyReads a b) (ht : AllSym TidySym a.st) : AllSym TidySym b.st := by
  intro q t hq
  have hlt : q < a.st.psym.length := by rw [← h.names.2.2]; exact (List.getElem?_eq_some_iff.1 hq).1
  exact (h.syms q _ t (List.getElem?_eq_getElem hlt) hq).tidy (ht q _ (List.getElem?_eq_getElem hlt))

theorem Kinds.reads {r : Nat × Nat} {F : Src.Fns} {a b : VM} (h : OnlyReads a b) (ht : Kinds r a.st a.fn F) : Kinds r b.st b.fn F := by
  refine ⟨fun t hm => ?_, by have := h.rest; rw [this]; exact ht.idle, ht.functions.reads h⟩
  obtain ⟨q, hq⟩ := List.mem_iff_getElem?.1 hm
  have hlt : q < a.st.psym.length := by rw [← h.names.2.2]; exact (List.getElem?_eq_some_iff.1 hq).1
  have := (h.syms q _ t (List.getElem?_eq_getElem hlt) hq).head
  rw [this.2.2.1]
  exact ht.known _ (List.getElem_mem hlt)

theorem Kinds.update {r : Nat × Nat} {st : SymTab} {fn : FnState} {F : Src.Fns} (h : Kinds r st fn F) (q : Nat) {f : Symbol → Symbol} (hf : V.ValueOnly f)
    (hk : ∀ s, st.psym[q]? = some s → s.kind ≠ .def_) : Kinds r (symUpdate st q f) fn F := by
  refine ⟨fun t hm => ?_, h.idle, h.functions.update q hf hk⟩
  obtain ⟨i, hi⟩ := List.mem_iff_getElem?.1 hm
  simp only [symUpdate, List.getElem?_modify, Option.map_eq_map, Option.map_eq_some_iff] at hi
  obtain ⟨s, hs, rfl⟩ := hi
  have := h.known s (List.mem_of_getElem? hs)
  split
  · rw [(hf s).2.2.1]; exact this
  · exact this

end LB
