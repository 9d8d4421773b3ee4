import Verif.Proofs.Calls
import Verif.Proofs.Bounds
import Verif.Proofs.Demo
/- C19: GOSUB and RETURN. -/
namespace LB
open Spec

/-- C19.  RETURN continues right after the call it belongs to: the most recent call that has not been returned
from.  `b` calls, the run goes on from `c` to `d` with balanced calls and returns, and `d` executes RETURN.
Nothing but the position and the record of pending calls changes, and that record is as before the call. -/
theorem C19_return (env : Env) (b c d : VM) (back : CodeState)
    (hcall : CallAt b back) (hb : V.execute env b = .ok () c) (hrun : SameLevel env c d) (hret : At d .return_) :
    V.execute env d = .ok () { d with cs := back, retstack := b.retstack } := by
  apply V.return_ok hret
  rw [V.sameLevel_retstack hrun, V.call_retstack hcall hb]

/-- C19.  RETURN when every call since the start of the run has been returned from stops with an error, and
nothing changes.  (RUN starts without pending calls: `resetControlState`.) -/
theorem C19_return_without_gosub (env : Env) (a d : VM) (h0 : a.retstack = []) (hrun : SameLevel env a d)
    (hret : At d .return_) : V.execute env d = .err .returnWithoutGosub d := by
  have h := V.sameLevel_retstack hrun
  rw [h0] at h
  rw [V.execute_at env hret]
  simp [V.exec, V.popReturn, h]

/-- C19.  A ninth nested GOSUB stops with an error and nothing changes; the ninth ON..GOSUB has used up its
number. -/
theorem C19_ninth_gosub (env : Env) (a b : VM) (h0 : a.retstack = []) (hrun : Deeper env 8 a b) :
    (∀ l, At b (.gosub l) → V.execute env b = .err .gosubTooDeep b) ∧
    (∀ (n k : Nat) (rest : List Dbl) (l : Nat), At b (.onGosub n) → b.stack = .fin k :: rest → 1 ≤ k → k ≤ n →
      (∃ bc, V.curBcode b = .ok bc b ∧ bc.inst[b.cs.pc + k]? = some (.onLine l)) →
      V.execute env b = .err .gosubTooDeep { b with stack := rest }) := by
  have hlen : b.retstack.length = 8 := by rw [V.deeper_retstack hrun, h0]; rfl
  have hfull : b.retstack.length ≥ maxReturnStack := by simp [maxReturnStack]; omega
  constructor
  · intro l hat
    rw [V.execute_at env hat]
    simp [V.exec, V.pushReturn, hfull]
  · rintro n k rest l hat hs h1 h2 ⟨bc, hb, hi⟩
    rw [V.execute_at env hat]
    simp [V.exec, V.on_inside hb hs h1 h2, hi, V.onTarget, V.pushReturn, hfull]

/-- C19.  Up to eight nested calls are accepted: GOSUB with fewer calls pending continues at the line it names
and remembers the place after itself; nothing else changes. -/
theorem C19_gosub (env : Env) (a b : VM) (n line pc : Nat) (h0 : a.retstack = []) (hrun : Deeper env n a b)
    (hn : n < 8) (hat : At b (.gosub line)) (hl : b.stored.index.bind (lookupLineMapping · line) = some pc) :
    V.execute env b = .ok () { b with
      retstack := following b.cs :: b.retstack
      cs := { b.cs with code := some .stored, pc := pc } } := by
  have hlen : ¬ b.retstack.length ≥ maxReturnStack := by
    rw [V.deeper_retstack hrun, h0]; simp [maxReturnStack]; omega
  rw [V.execute_at env hat]
  simp only [V.exec, V.ret_apply, V.bind_apply, V.get_apply, V.pushReturn, if_neg hlen]
  rw [V.goTo_ok (by exact hl)]
  rfl

private def code : List Inst := [.gosub 100, .end_, .gosub 200, .return_, .return_]
private def prog : VM :=
  { Demo.machine code [] with
    stored := ⟨none, some ⟨code, false⟩, some (match insertLineMapping (newLineMap 2) 100 2 with
      | .ok (_, m) => match insertLineMapping m 200 4 with
        | .ok (_, m') => m'
        | .halt _ => m
      | .halt _ => newLineMap 2)⟩ }
private def at_ (pc : Nat) (r : List CodeState) : VM := { prog with cs := ⟨some .stored, 0, pc⟩, retstack := r }

/-- The hypotheses of `C19_return` on a program with a call inside the called subroutine. -/
example : CallAt (at_ 0 []) ⟨some .stored, 0, 1⟩ ∧
    V.execute Demo.env (at_ 0 []) = .ok () (at_ 2 [⟨some .stored, 0, 1⟩]) ∧
    SameLevel Demo.env (at_ 2 [⟨some .stored, 0, 1⟩]) (at_ 3 [⟨some .stored, 0, 1⟩]) ∧
    At (at_ 3 [⟨some .stored, 0, 1⟩]) .return_ := by
  refine ⟨CallAt.gosub 100 ⟨.stored, _, rfl, rfl, rfl⟩, rfl, ?_, ⟨.stored, _, rfl, rfl, rfl⟩⟩
  exact SameLevel.call (c := at_ 4 [⟨some .stored, 0, 3⟩, ⟨some .stored, 0, 1⟩])
    (d := at_ 4 [⟨some .stored, 0, 3⟩, ⟨some .stored, 0, 1⟩]) ⟨some .stored, 0, 3⟩ (SameLevel.here _)
    (CallAt.gosub 200 ⟨.stored, _, rfl, rfl, rfl⟩) rfl (SameLevel.here _) ⟨.stored, _, rfl, rfl, rfl⟩ rfl

/-- The hypotheses of `C19_ninth_gosub` on a subroutine that calls itself. -/
private def selfCall : VM :=
  { Demo.machine [.gosub 100] [] with
    stored := ⟨none, some ⟨[.gosub 100], false⟩, some (match insertLineMapping (newLineMap 1) 100 0 with
      | .ok (_, m) => m
      | .halt _ => newLineMap 1)⟩ }
private def nest (n : Nat) : VM := { selfCall with retstack := List.replicate n ⟨some .stored, 0, 1⟩ }

private theorem nest_deeper : ∀ n, n ≤ 8 → Deeper Demo.env n (nest 0) (nest n)
  | 0, _ => .same (.here _)
  | n + 1, h => by
    refine .call (b := nest n) (c := nest (n + 1)) ⟨some .stored, 0, 1⟩ (nest_deeper n (by omega))
      (CallAt.gosub 100 ⟨.stored, _, rfl, rfl, rfl⟩) ?_ (.here _)
    match n, h with
    | 0, _ => rfl
    | 1, _ => rfl
    | 2, _ => rfl
    | 3, _ => rfl
    | 4, _ => rfl
    | 5, _ => rfl
    | 6, _ => rfl
    | 7, _ => rfl

example : (nest 0).retstack = [] ∧ Deeper Demo.env 8 (nest 0) (nest 8) ∧ At (nest 8) (.gosub 100) :=
  ⟨rfl, nest_deeper 8 (Nat.le_refl _), ⟨.stored, _, rfl, rfl, rfl⟩⟩

set_option maxRecDepth 100000 in
/-- The conclusions of the theorems on typed programs: nested calls, and a RETURN without a call. -/
example : Demo.shows "10 GOSUB 100\n20 PRINT \"BACK\"\n30 RETURN\n100 ON 2 GOSUB 300,200\n110 PRINT \"MID\"\n120 RETURN\n200 PRINT \"IN\"\n210 RETURN\nRUN\n"
    = .ok "> > > > > > > > > IN\nMID\nBACK\n".toList := by decide +kernel

end LB
