import Verif.Proofs.Strings
import Verif.Proofs.DemoRun
import Verif.Proofs.Exec
import Verif.Spec.Machine
/- C25: the length of strings. -/
namespace LB
open Spec

/-- C25.  At every moment of every session, whatever is typed, loaded, read or computed, each string waiting in an
expression, held by a variable or held by an element of a string array has at most 255 characters. -/
theorem C25_short (vm : VM) (h : Moment vm) :
    (∀ s ∈ vm.strstack, s.length ≤ 255) ∧
    (∀ id, (str vm.st id).length ≤ 255) ∧
    (∀ v ∈ vm.st.psym, ∀ a, v.strarr = some a → ∀ s, some s ∈ a.val → s.length ≤ 255) := by
  have hb := V.moment_brief h
  refine ⟨hb.stack, ?_, fun v hv a ha s hs => (hb.tab v hv).arr a ha s hs⟩
  intro id
  unfold str
  split
  · rename_i v hv
    split
    · cases hs : v.str with
      | none => exact Nat.zero_le _
      | some s => exact (hb.tab v (List.mem_of_getElem? hv)).str s hs
    · exact Nat.zero_le _
  · exact Nat.zero_le _

/-- C25.  Joining two strings gives all the characters of the first followed by all the characters of the second when
that makes at most 255 characters, and otherwise is an error that changes no variable and prints nothing. -/
theorem C25_concat (env : Env) (vm : VM) (s t : CStr) (rest : List CStr) (hm : Moment vm) (hat : At vm .concat)
    (hs : vm.strstack = t :: s :: rest) :
    (s.length + t.length ≤ 255 →
      V.execute env vm = .ok () { vm with strstack := (s ++ t) :: rest, cs := following vm.cs }) ∧
    (255 < s.length + t.length → V.execute env vm = .err .concatTooLong { vm with strstack := rest }) := by
  have hl : rest.length + 2 ≤ maxStrStack := by
    have := (V.moment_bounds hm).2.1
    rw [hs] at this
    exact this
  have hb : V.strBuf = 256 := rfl
  constructor
  · intro hlen
    rw [V.execute_at env hat]
    have h1 : ¬ (s.length + t.length + 1 > V.strBuf) := by omega
    have h2 : ¬ (rest.length ≥ maxStrStack) := by omega
    simp only [V.exec, V.brk_apply, V.bind_apply, V.popStr, hs, V.check_apply, decide_eq_true_eq, if_neg h1, V.pushStr, if_neg h2]
  · intro hlen
    rw [V.execute_at env hat]
    have h1 : s.length + t.length + 1 > V.strBuf := by omega
    simp only [V.exec, V.brk_apply, V.bind_apply, V.popStr, hs, V.check_apply, decide_eq_true_eq, if_pos h1]

set_option maxRecDepth 100000 in
example : ∃ vm, Moment vm ∧ At vm .concat ∧ vm.strstack = ["cd".toList, "ab".toList] := by
  obtain ⟨vm, h, hp⟩ := Demo.moment (lines := [(10, "PRINT \"ab\"+\"cd\"")]) (n := 3)
    (P := fun vm => Demo.nextIs .concat vm && decide (vm.strstack = ["cd".toList, "ab".toList])) (by decide +kernel)
  simp only [Bool.and_eq_true, decide_eq_true_eq] at hp
  exact ⟨vm, h, Demo.at_of_nextIs hp.1, hp.2⟩

set_option maxRecDepth 100000 in
/-- A string of 255 characters can be built; one more character is refused, and the variable keeps its value. -/
example : Demo.shows ("A$=\"x\"\nFOR I=1 TO 7: A$=A$+A$: NEXT\nA$=A$+LEFT$(A$,127)\nPRINT LEN(A$)\n" ++
    "A$=A$+\"y\"\nPRINT LEN(A$)\n") = .ok "> > > >  255 \n> >  255 \n".toList := by decide +kernel

end LB
