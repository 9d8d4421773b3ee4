import Verif.Proofs.Branches
import Verif.Proofs.Demo
/- C20, C21: ON and IF. -/
namespace LB
open Spec

/-- C20.  ON..GOTO with an integer from 1 to k continues at the line with that place in the list. -/
theorem C20_goto_selected (env : Env) (vm : VM) (lines : List Nat) (x : Nat) (rest : List Dbl) (l pc : Nat)
    (hat : OnAt vm false lines) (hs : vm.stack = .fin x :: rest) (h1 : 1 ≤ x) (hl : lines[x - 1]? = some l)
    (hpc : lineStart vm l = some pc) :
    V.execute env vm = .ok () { vm with stack := rest, cs := { vm.cs with code := some .stored, pc := pc } } := by
  obtain ⟨hat, hlist⟩ := hat
  have hx : x ≤ lines.length := by
    have := (List.getElem?_eq_some_iff.1 hl).1; omega
  obtain ⟨bc, hb, _⟩ := V.curBcode_at hat
  have hi := hlist (x - 1) l hl
  rw [V.instAt_bcode hb, show vm.cs.pc + 1 + (x - 1) = vm.cs.pc + x by omega] at hi
  rw [V.execute_at env hat]
  simp only [Bool.false_eq_true, if_false, V.exec, V.ret_apply, V.on_inside hb hs h1 hx, hi, V.onTarget, V.bind_apply,
    V.when_apply]
  rw [V.goTo_ok (by exact hpc)]

/-- C20.  ON..GOSUB with an integer from 1 to k calls the line with that place in the list: it continues there
and remembers the place after the list. -/
theorem C20_gosub_selected (env : Env) (vm : VM) (lines : List Nat) (x : Nat) (rest : List Dbl) (l pc : Nat)
    (hat : OnAt vm true lines) (hs : vm.stack = .fin x :: rest) (h1 : 1 ≤ x) (hl : lines[x - 1]? = some l)
    (hpc : lineStart vm l = some pc) (hroom : vm.retstack.length < 8) :
    V.execute env vm = .ok () { vm with
      stack := rest
      retstack := { vm.cs with pc := vm.cs.pc + 1 + lines.length } :: vm.retstack
      cs := { vm.cs with code := some .stored, pc := pc } } := by
  obtain ⟨hat, hlist⟩ := hat
  have hx : x ≤ lines.length := by
    have := (List.getElem?_eq_some_iff.1 hl).1; omega
  obtain ⟨bc, hb, _⟩ := V.curBcode_at hat
  have hi := hlist (x - 1) l hl
  rw [V.instAt_bcode hb, show vm.cs.pc + 1 + (x - 1) = vm.cs.pc + x by omega] at hi
  have hlen : ¬ vm.retstack.length ≥ maxReturnStack := by simp [maxReturnStack]; omega
  rw [V.execute_at env hat]
  simp only [if_true, V.exec, V.ret_apply, V.on_inside hb hs h1 hx, hi, V.onTarget, V.bind_apply,
    V.when_apply, V.pushReturn, if_neg hlen]
  rw [V.goTo_ok (by exact hpc)]
  simp only [show vm.cs.pc + lines.length + 1 = vm.cs.pc + 1 + lines.length by omega]

/-- C20.  When the selected line does not exist, the run stops with an error naming it. -/
theorem C20_missing_line (env : Env) (vm : VM) (gosub : Bool) (lines : List Nat) (x : Nat) (rest : List Dbl) (l : Nat)
    (hat : OnAt vm gosub lines) (hs : vm.stack = .fin x :: rest) (h1 : 1 ≤ x) (hl : lines[x - 1]? = some l)
    (hpc : lineStart vm l = none) (hroom : vm.retstack.length < 8) :
    ∃ vm', V.execute env vm = .err (.lineNotFound l) vm' := by
  obtain ⟨hat, hlist⟩ := hat
  have hx : x ≤ lines.length := by
    have := (List.getElem?_eq_some_iff.1 hl).1; omega
  obtain ⟨bc, hb, _⟩ := V.curBcode_at hat
  have hi := hlist (x - 1) l hl
  rw [V.instAt_bcode hb, show vm.cs.pc + 1 + (x - 1) = vm.cs.pc + x by omega] at hi
  have hlen : ¬ vm.retstack.length ≥ maxReturnStack := by simp [maxReturnStack]; omega
  rw [V.execute_at env hat]
  cases gosub with
  | false =>
    refine ⟨{ vm with stack := rest }, ?_⟩
    simp only [Bool.false_eq_true, if_false, V.exec, V.ret_apply, V.on_inside hb hs h1 hx, hi, V.onTarget, V.bind_apply,
      V.when_apply]
    rw [V.goTo_missing (by exact hpc)]
  | true =>
    refine ⟨{ vm with stack := rest, retstack := { vm.cs with pc := vm.cs.pc + lines.length + 1 } :: vm.retstack }, ?_⟩
    simp only [if_true, V.exec, V.ret_apply, V.on_inside hb hs h1 hx, hi, V.onTarget, V.bind_apply,
      V.when_apply, V.pushReturn, if_neg hlen]
    rw [V.goTo_missing (by exact hpc)]

/-- C20.  ON with an integer outside 1…k, or an infinite value, continues with the statement after the list. -/
theorem C20_falls_through (env : Env) (vm : VM) (gosub : Bool) (lines : List Nat) (x : Dbl) (rest : List Dbl)
    (hat : OnAt vm gosub lines) (hs : vm.stack = x :: rest)
    (hx : (∃ k, IsInt x k ∧ (k < 1 ∨ (lines.length : Int) < k)) ∨ x = .pinf ∨ x = .ninf) :
    V.execute env vm = .ok () { vm with
      stack := rest
      cs := { vm.cs with pc := vm.cs.pc + 1 + lines.length } } := by
  obtain ⟨hat, -⟩ := hat
  have hi : Dbl.ne x (Dbl.floor x) = false := by
    rw [V.ne_floor_iff]
    rcases hx with ⟨k, h, _⟩ | h
    · exact Or.inl ⟨k, h⟩
    · exact Or.inr h
  have ho : V.onOutside x lines.length = true := by
    rcases hx with ⟨k, h, h'⟩ | rfl | rfl
    · rw [V.onOutside_int _ h]; simpa using h'
    · rfl
    · rfl
  rw [V.execute_at env hat]
  cases gosub <;>
  simp only [if_true, Bool.false_eq_true, if_false, V.exec, V.ret_apply, V.onStatement, V.bind_apply, V.pop, hs,
    V.check_apply, hi, V.get_apply, ho, V.setPc, V.modify_apply,
    show vm.cs.pc + lines.length + 1 = vm.cs.pc + 1 + lines.length by omega]

/-- C20.  ON with a fraction or NaN stops with an error; nothing but the value is lost. -/
theorem C20_not_integer (env : Env) (vm : VM) (gosub : Bool) (lines : List Nat) (x : Dbl) (rest : List Dbl)
    (hat : OnAt vm gosub lines) (hs : vm.stack = x :: rest)
    (hx : ∀ k, ¬ IsInt x k) (hp : x ≠ .pinf) (hn : x ≠ .ninf) :
    V.execute env vm = .err .onInvalid { vm with stack := rest } := by
  obtain ⟨hat, -⟩ := hat
  have hi : Dbl.ne x (Dbl.floor x) = true := by
    cases h : Dbl.ne x (Dbl.floor x) with
    | true => rfl
    | false =>
      rw [V.ne_floor_iff] at h
      rcases h with ⟨k, h⟩ | h | h
      · exact absurd h (hx k)
      · exact absurd h hp
      · exact absurd h hn
  rw [V.execute_at env hat]
  cases gosub <;>
  simp only [if_true, Bool.false_eq_true, if_false, V.exec, V.ret_apply, V.onStatement, V.bind_apply, V.pop, hs,
    V.check_apply, hi]

private def onDemo (x : Dbl) (gosub : Bool) : VM :=
  let code : List Inst := [if gosub then .onGosub 2 else .onGoto 2, .onLine 100, .onLine 200, .end_]
  { Demo.machine code [] with
    stored := ⟨none, some ⟨code, false⟩, some (match insertLineMapping (newLineMap 1) 200 3 with
      | .ok (_, m) => m
      | .halt _ => newLineMap 1)⟩
    stack := [x] }

private theorem onDemo_at (x : Dbl) (g : Bool) : OnAt (onDemo x g) g [100, 200] := by
  refine ⟨⟨.stored, _, rfl, rfl, ?_⟩, ?_⟩
  · cases g <;> rfl
  · intro i l h
    match i, h with
    | 0, h => cases h; rfl
    | 1, h => cases h; rfl

example (g : Bool) : OnAt (onDemo (.fin 2) g) g [100, 200] ∧ (onDemo (.fin 2) g).stack = .fin (2 : Nat) :: [] ∧
    lineStart (onDemo (.fin 2) g) 200 = some 3 ∧ lineStart (onDemo (.fin 1) g) 100 = none :=
  ⟨onDemo_at _ _, rfl, rfl, rfl⟩
example : IsInt (.fin 7) 7 ∧ IsInt .nzero 0 ∧ ∀ k, ¬ IsInt (.fin (1/2)) k := by
  refine ⟨.inl rfl, .inr ⟨rfl, rfl⟩, ?_⟩
  rintro k (h | ⟨h, _⟩)
  · have h' : (1/2 : Rat) = (k : Rat) := by simpa using h
    have : ((k : Int) : Rat).den = 1 := Rat.den_intCast k
    rw [← h'] at this
    exact absurd this (by decide +kernel)
  · cases h

/-- C21.  IF c THEN s1 ELSE s2 with c false: execution goes on with s2. -/
theorem C21_else_taken (env : Env) (vm : VM) (before s1 s2 rest : List Inst) (c : Dbl) (stack : List Dbl)
    (hc : IfElseCode vm before s1 s2 rest) (hpc : vm.cs.pc = before.length) (hs : vm.stack = c :: stack)
    (hf : IsFalse c) :
    V.execute env vm = .ok () { vm with
      stack := stack
      cs := { vm.cs with pc := before.length + 1 + s1.length + 1 } } := by
  obtain ⟨r, b, h1, h2, h3⟩ := hc.code
  have hat : At vm .ifElse := ⟨r, b, h1, h2, by rw [h3, hpc]; simp⟩
  have hb : V.curBcode vm = .ok b vm := by simp [V.curBcode, h1, h2]
  rw [V.execute_at env hat]
  simp only [V.exec, V.bind_apply, V.pop, hs, (V.truth_iff c).2 hf, Bool.not_false, if_true, V.brk_apply, V.skipTo,
    V.curBcode_stack hb, V.get_apply, V.setPc, V.modify_apply]
  have := V.scan_over V.isElse (before ++ [.ifElse]) s1 ([.else_] ++ s2 ++ rest) (vm.cs.pc + 1) (by simp [hpc])
    (fun i hi => by cases i <;> first | rfl | exact absurd hi hc.noElse)
    (.inr ⟨.else_, s2 ++ rest, by simp, rfl⟩)
  rw [h3]
  simp only [List.append_assoc] at this ⊢
  rw [this]
  simp [following]

/-- C21.  IF c THEN s1 ELSE s2 with c true (any number but zero, NaN included): execution goes on with s1. -/
theorem C21_then_taken (env : Env) (vm : VM) (before s1 s2 rest : List Inst) (c : Dbl) (stack : List Dbl)
    (hc : IfElseCode vm before s1 s2 rest) (hpc : vm.cs.pc = before.length) (hs : vm.stack = c :: stack)
    (hf : ¬ IsFalse c) :
    V.execute env vm = .ok () { vm with stack := stack, cs := { vm.cs with pc := before.length + 1 } } := by
  obtain ⟨r, b, h1, h2, h3⟩ := hc.code
  have hat : At vm .ifElse := ⟨r, b, h1, h2, by rw [h3, hpc]; simp⟩
  have ht : V.truth c = true := by
    cases h : V.truth c with
    | true => rfl
    | false => exact absurd ((V.truth_iff c).1 h) hf
  rw [V.execute_at env hat]
  simp only [V.exec, V.bind_apply, V.pop, hs, ht, Bool.not_true, Bool.false_eq_true, if_false, V.pure_apply, following,
    hpc]

/-- C21.  When s1 has been executed, s2 is skipped: execution goes on with the following line. -/
theorem C21_else_skipped (env : Env) (vm : VM) (before s1 s2 rest : List Inst)
    (hc : IfElseCode vm before s1 s2 rest) (hpc : vm.cs.pc = before.length + 1 + s1.length) :
    V.execute env vm = .ok () { vm with
      cs := { vm.cs with pc := before.length + 1 + s1.length + 1 + s2.length } } := by
  obtain ⟨r, b, h1, h2, h3⟩ := hc.code
  have hat : At vm .else_ := ⟨r, b, h1, h2, by
    rw [h3, hpc, List.append_assoc, List.append_assoc, List.getElem?_append_right (by simp; omega)]
    simp [show before.length + 1 + s1.length - (before.length + (s1.length + 1)) = 0 by omega]⟩
  have hb : V.curBcode vm = .ok b vm := by simp [V.curBcode, h1, h2]
  rw [V.execute_at env hat]
  simp only [V.exec, V.ret_apply, V.skipTo, V.bind_apply, hb, V.get_apply, V.setPc, V.modify_apply]
  have := V.scan_over Inst.isSourceLine (before ++ [.ifElse] ++ s1 ++ [.else_]) s2 rest (vm.cs.pc + 1)
    (by simp [hpc]; omega)
    (fun i hi => by cases i <;> first | rfl | exact absurd hi (hc.oneLine _))
    (by
      rcases hc.next with h | ⟨l, r, h⟩
      · exact .inl h
      · exact .inr ⟨_, _, h, rfl⟩)
  rw [h3, this]
  simp only [List.length_append, List.length_singleton]

/-- C21.  IF c THEN s1 without ELSE and c false: the rest of the line is skipped. -/
theorem C21_no_else (env : Env) (vm : VM) (before s1 rest : List Inst) (c : Dbl) (stack : List Dbl)
    (hc : IfCode vm before s1 rest) (hpc : vm.cs.pc = before.length) (hs : vm.stack = c :: stack) :
    (IsFalse c → V.execute env vm = .ok () { vm with
      stack := stack
      cs := { vm.cs with pc := before.length + 1 + s1.length } }) ∧
    (¬ IsFalse c → V.execute env vm = .ok () { vm with
      stack := stack
      cs := { vm.cs with pc := before.length + 1 } }) := by
  obtain ⟨r, b, h1, h2, h3⟩ := hc.code
  have hat : At vm .ifThen := ⟨r, b, h1, h2, by rw [h3, hpc]; simp⟩
  have hb : V.curBcode vm = .ok b vm := by simp [V.curBcode, h1, h2]
  constructor
  · intro hf
    rw [V.execute_at env hat]
    simp only [V.exec, V.bind_apply, V.pop, hs, (V.truth_iff c).2 hf, Bool.not_false, if_true, V.ret_apply, V.skipTo,
      V.curBcode_stack hb, V.get_apply, V.setPc, V.modify_apply]
    have := V.scan_over Inst.isSourceLine (before ++ [.ifThen]) s1 rest (vm.cs.pc + 1) (by simp [hpc])
      (fun i hi => by cases i <;> first | rfl | exact absurd hi (hc.oneLine _))
      (by
        rcases hc.next with h | ⟨l, r, h⟩
        · exact .inl h
        · exact .inr ⟨_, _, h, rfl⟩)
    rw [h3, this]
    simp only [List.length_append, List.length_singleton]
  · intro hf
    have ht : V.truth c = true := by
      cases h : V.truth c with
      | true => rfl
      | false => exact absurd ((V.truth_iff c).1 h) hf
    rw [V.execute_at env hat]
    simp only [V.exec, V.bind_apply, V.pop, hs, ht, Bool.not_true, Bool.false_eq_true, if_false, V.pure_apply, following,
      hpc]

/-- C21.  IF c THEN n (a line number): with c true the run continues at line n, otherwise with the next
instruction (the GOTO of an ELSE m, or the end of the line). -/
theorem C21_line_number (env : Env) (vm : VM) (n pc : Nat) (c : Dbl) (stack : List Dbl)
    (hat : At vm (.gotrue n)) (hs : vm.stack = c :: stack) :
    (IsFalse c → V.execute env vm = .ok () { vm with stack := stack, cs := following vm.cs }) ∧
    (¬ IsFalse c → lineStart vm n = some pc →
      V.execute env vm = .ok () { vm with stack := stack, cs := { vm.cs with code := some .stored, pc := pc } }) := by
  constructor
  · intro hf
    rw [V.execute_at env hat]
    simp only [V.exec, V.bind_apply, V.pop, hs, (V.truth_iff c).2 hf, Bool.false_eq_true, if_false, V.pure_apply]
  · intro hf hpc
    have ht : V.truth c = true := by
      cases h : V.truth c with
      | true => rfl
      | false => exact absurd ((V.truth_iff c).1 h) hf
    rw [V.execute_at env hat]
    simp only [V.exec, V.bind_apply, V.pop, hs, ht, if_true, V.ret_apply]
    rw [V.goTo_ok (by exact hpc)]

private def ifDemo (pc : Nat) (c : Dbl) : VM :=
  { Demo.machine [.sourceLine 0, .pushNum c, .ifElse, .pushNum (.fin 1), .printNum, .else_, .pushNum (.fin 2),
      .printNum, .sourceLine 1] [] with cs := ⟨some .stored, 0, pc⟩, stack := [c] }

example (pc : Nat) (c : Dbl) : IfElseCode (ifDemo pc c) [.sourceLine 0, .pushNum c] [.pushNum (.fin 1), .printNum]
    [.pushNum (.fin 2), .printNum] [.sourceLine 1] :=
  ⟨⟨.stored, _, rfl, rfl, rfl⟩, by simp, by simp, .inr ⟨1, [], rfl⟩⟩
example : IsFalse .nzero ∧ ¬ IsFalse .nan ∧ ¬ IsFalse (.fin (-1)) := by
  unfold IsFalse; decide +kernel

set_option maxRecDepth 100000 in
/-- Dangling ELSE: it belongs to the second IF, so nothing is shown when the first condition is false. -/
example : Demo.shows "IF 0 THEN IF 1 THEN PRINT 1 ELSE PRINT 2\nIF 1 THEN IF 0 THEN PRINT 1 ELSE PRINT 2\nIF 0 THEN PRINT 1 ELSE IF 0 THEN PRINT 2 ELSE PRINT 3\n"
    = .ok "> >  2 \n>  3 \n".toList := by decide +kernel

end LB
