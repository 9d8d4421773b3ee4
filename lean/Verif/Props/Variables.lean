import Verif.Proofs.Variables
import Verif.Proofs.Demo
/- C47: scalar variables hold the value last assigned.  That FOR, READ and INPUT assign is `C17_for`, `C22_read_number`,
`C22_read_string` and `C31_accepted`. -/
namespace LB
open LB.Spec

private def demo (i : Inst) : VM :=
  { Demo.machine [i] [Demo.numSym "X" 0 (.fin 7), Demo.strSym "S$" 1 "AB"] with
    stack := [.fin 5, .fin 9], strstack := ["C".toList] }

/-- C47.  Reading a numeric scalar gives the number it holds (0 when it was given none), and changes no variable. -/
theorem C47_get_number (env : Env) (vm : VM) (id : Nat) (hat : At vm (.getSimpleNum id)) (hv : NumVar vm.st id)
    (hroom : vm.stack.length < 16) :
    ∃ st', V.execute env vm = .ok () { vm with st := st', stack := num vm.st id :: vm.stack, cs := following vm.cs } ∧
      NumVar st' id ∧ num st' id = num vm.st id ∧ SameBut id vm.st st' := by
  obtain ⟨s, hs, hk, ht⟩ := hv
  refine ⟨if s.defined then vm.st else symUpdate vm.st id (fun s => { s with num := .fin 0, defined := true }), ?_, ?_⟩
  · rw [V.execute_at env hat]
    simp only [V.exec, V.brk_apply, V.getNumericSimple_ok hs hk ht hroom, num, hs]
  · by_cases hd : s.defined
    · simp only [hd, if_true]
      exact ⟨⟨s, hs, hk, ht⟩, trivial, rfl, rfl, fun _ _ => rfl⟩
    · simp only [hd]
      exact ⟨⟨_, symUpdate_same hs, hk, ht⟩, by simp [num, symUpdate_same hs, hs, hd], symUpdate_sameBut _ _ _⟩

example : At (demo (.getSimpleNum 0)) (.getSimpleNum 0) ∧ NumVar (demo (.getSimpleNum 0)).st 0 ∧
    (demo (.getSimpleNum 0)).stack.length < 16 ∧ num (demo (.getSimpleNum 0)).st 0 = .fin 7 :=
  ⟨⟨.stored, _, rfl, rfl, rfl⟩, ⟨_, rfl, rfl, rfl⟩, by decide, rfl⟩

/-- C47.  Reading a string scalar gives the string it holds (empty when it was given none), and changes no variable. -/
theorem C47_get_string (env : Env) (vm : VM) (id : Nat) (hat : At vm (.getSimpleStr id)) (hv : StrVar vm.st id)
    (hroom : vm.strstack.length < 8) :
    ∃ st', V.execute env vm = .ok () { vm with st := st', strstack := str vm.st id :: vm.strstack, cs := following vm.cs } ∧
      StrVar st' id ∧ str st' id = str vm.st id ∧ SameBut id vm.st st' := by
  obtain ⟨s, hs, hk, ht, hi⟩ := hv
  refine ⟨if s.defined then vm.st else symUpdate vm.st id (fun s => { s with str := none, defined := true }), ?_, ?_⟩
  · rw [V.execute_at env hat]
    simp only [V.exec, V.brk_apply, V.getStringSimple_ok hs hk ht hroom, str, hs]
  · by_cases hd : s.defined
    · simp only [hd, if_true]
      exact ⟨⟨s, hs, hk, ht, hi⟩, trivial, rfl, rfl, fun _ _ => rfl⟩
    · simp only [hd]
      exact ⟨⟨_, symUpdate_same hs, hk, ht, fun _ => rfl⟩, by simp [str, symUpdate_same hs, hs, hd],
        symUpdate_sameBut _ _ _⟩

example : At (demo (.getSimpleStr 1)) (.getSimpleStr 1) ∧ StrVar (demo (.getSimpleStr 1)).st 1 ∧
    (demo (.getSimpleStr 1)).strstack.length < 8 ∧ str (demo (.getSimpleStr 1)).st 1 = "AB".toList :=
  ⟨⟨.stored, _, rfl, rfl, rfl⟩, ⟨_, rfl, rfl, rfl, fun _ => rfl⟩, by decide, rfl⟩

/-- C47.  Assigning a number: the scalar holds it, everything else is as it was. -/
theorem C47_let_number (env : Env) (vm : VM) (id : Nat) (x : Dbl) (rest : List Dbl) (hat : At vm (.setSimpleNum id))
    (hv : NumVar vm.st id) (hs : vm.stack = x :: rest) :
    ∃ st', V.execute env vm = .ok () { vm with st := st', stack := rest, cs := following vm.cs } ∧
      NumVar st' id ∧ num st' id = x ∧ SameBut id vm.st st' := by
  have hv' : NumVar ({ vm with stack := rest } : VM).st id := hv
  obtain ⟨s, h1, hk, ht⟩ := hv
  refine ⟨symUpdate vm.st id (fun s => { s with num := x, defined := true }), ?_, ⟨_, symUpdate_same h1, hk, ht⟩, ?_,
    symUpdate_sameBut _ _ _⟩
  · rw [V.execute_at env hat]
    simp only [V.exec, V.brk_apply, V.bind_apply, V.sym_ok h1, V.pop, hs, V.setNumericSimple_ok hv']
  · simp [num, symUpdate_same h1]

example : At (demo (.setSimpleNum 0)) (.setSimpleNum 0) ∧ NumVar (demo (.setSimpleNum 0)).st 0 ∧
    (demo (.setSimpleNum 0)).stack = .fin 5 :: [.fin 9] :=
  ⟨⟨.stored, _, rfl, rfl, rfl⟩, ⟨_, rfl, rfl, rfl⟩, rfl⟩

/-- C47.  Assigning a string: the scalar holds it, everything else is as it was. -/
theorem C47_let_string (env : Env) (vm : VM) (id : Nat) (x : CStr) (rest : List CStr) (hat : At vm (.setSimpleStr id))
    (hv : StrVar vm.st id) (hs : vm.strstack = x :: rest) :
    ∃ st', V.execute env vm = .ok () { vm with st := st', strstack := rest, cs := following vm.cs } ∧
      StrVar st' id ∧ str st' id = x ∧ SameBut id vm.st st' := by
  have hv' : StrVar ({ vm with strstack := rest } : VM).st id := hv
  obtain ⟨s, h1, hk, ht, -⟩ := hv
  refine ⟨symUpdate vm.st id (fun s => { s with str := some x, defined := true }), ?_,
    ⟨_, symUpdate_same h1, hk, ht, fun _ => rfl⟩, ?_, symUpdate_sameBut _ _ _⟩
  · rw [V.execute_at env hat]
    simp only [V.exec, V.brk_apply, V.bind_apply, V.sym_ok h1, V.popStr, hs, V.setStringSimple_ok hv']
  · simp [str, symUpdate_same h1]

example : At (demo (.setSimpleStr 1)) (.setSimpleStr 1) ∧ StrVar (demo (.setSimpleStr 1)).st 1 ∧
    (demo (.setSimpleStr 1)).strstack = "C".toList :: [] :=
  ⟨⟨.stored, _, rfl, rfl, rfl⟩, ⟨_, rfl, rfl, rfl, fun _ => rfl⟩, rfl⟩

/-- C47.  An instruction that does not give the scalar `j` a value leaves its value as it was, whether it succeeds or
fails. -/
theorem C47_other (env : Env) (vm vm' : VM) (j : Nat) (i : Inst) (hat : At vm i) (hj : Scalar vm.st j)
    (hi : ¬ Assigns vm j i) (hx : V.execute env vm = .ok () vm' ∨ ∃ e, V.execute env vm = .err e vm') :
    Scalar vm'.st j ∧ value vm'.st j = value vm.st j := by
  have h := V.shows_execute env (st0 := vm.st) hat ⟨hj, rfl⟩ hi
  obtain hx | ⟨e, hx⟩ := hx
  · rw [hx] at h; exact h
  · rw [hx] at h; exact h

example : At (demo (.setSimpleNum 0)) (.setSimpleNum 0) ∧ Scalar (demo (.setSimpleNum 0)).st 1 ∧
    ¬ Assigns (demo (.setSimpleNum 0)) 1 (.setSimpleNum 0) ∧
    value (demo (.setSimpleNum 0)).st 1 = some (.str "AB".toList) :=
  ⟨⟨.stored, _, rfl, rfl, rfl⟩, ⟨_, rfl, rfl⟩, by simp [Assigns], rfl⟩

/-- C47.  However many instructions are executed since `a`, as long as none of them gives the scalar a value, it still
has the value it had. -/
theorem C47_quiet (env : Env) (a b : VM) (j : Nat) (h : Quiet env j a b) (hj : Scalar a.st j) :
    Scalar b.st j ∧ value b.st j = value a.st j := by
  induction h with
  | here => exact ⟨hj, rfl⟩
  | step _ hat hi hx ih =>
    obtain ⟨h1, h2⟩ := C47_other env _ _ j _ hat ih.1 hi (.inl hx)
    exact ⟨h1, h2.trans ih.2⟩

/-- C47.  The number read is the one last assigned: after an assignment of `x` and any instructions that do not give the
scalar a value, reading it gives `x`. -/
theorem C47_last_number (env : Env) (vm a b : VM) (id : Nat) (x : Dbl) (rest : List Dbl)
    (hat : At vm (.setSimpleNum id)) (hv : NumVar vm.st id) (hs : vm.stack = x :: rest)
    (ha : V.execute env vm = .ok () a) (hq : Quiet env id a b) (hb : At b (.getSimpleNum id)) (hn : NumVar b.st id)
    (hroom : b.stack.length < 16) :
    ∃ c, V.execute env b = .ok () c ∧ c.stack = x :: b.stack := by
  obtain ⟨st', h1, ⟨s, h2, hk, ht⟩, h3, -⟩ := C47_let_number env vm id x rest hat hv hs
  rw [ha] at h1; cases h1
  obtain ⟨-, hq⟩ := C47_quiet env _ _ _ hq ⟨s, h2, hk⟩
  obtain ⟨st'', h4, -⟩ := C47_get_number env b id hb hn hroom
  refine ⟨_, h4, ?_⟩
  obtain ⟨sb, hsb, -, htb⟩ := hn
  simp only [value, h2, ht, hsb, htb, h3, Option.some.injEq, Val.num.injEq] at hq
  simp only [hq]

/-- C47.  The same for strings. -/
theorem C47_last_string (env : Env) (vm a b : VM) (id : Nat) (x : CStr) (rest : List CStr)
    (hat : At vm (.setSimpleStr id)) (hv : StrVar vm.st id) (hs : vm.strstack = x :: rest)
    (ha : V.execute env vm = .ok () a) (hq : Quiet env id a b) (hb : At b (.getSimpleStr id)) (hn : StrVar b.st id)
    (hroom : b.strstack.length < 8) :
    ∃ c, V.execute env b = .ok () c ∧ c.strstack = x :: b.strstack := by
  obtain ⟨st', h1, ⟨s, h2, hk, ht, -⟩, h3, -⟩ := C47_let_string env vm id x rest hat hv hs
  rw [ha] at h1; cases h1
  obtain ⟨-, hq⟩ := C47_quiet env _ _ _ hq ⟨s, h2, hk⟩
  obtain ⟨st'', h4, -⟩ := C47_get_string env b id hb hn hroom
  refine ⟨_, h4, ?_⟩
  obtain ⟨sb, hsb, -, htb, -⟩ := hn
  simp only [value, h2, ht, hsb, htb, h3, Option.some.injEq, Val.str.injEq] at hq
  simp only [hq]

private def three : VM :=
  { Demo.machine [.setSimpleNum 0, .setSimpleStr 1, .getSimpleNum 0] [Demo.numSym "X" 0 (.fin 7), Demo.strSym "S$" 1 "AB"] with
    stack := [.fin 5, .fin 9], strstack := ["C".toList] }
example : ∃ a b, At three (.setSimpleNum 0) ∧ NumVar three.st 0 ∧ three.stack = .fin 5 :: [.fin 9] ∧
    V.execute Demo.env three = .ok () a ∧ Scalar a.st 0 ∧ Quiet Demo.env 0 a b ∧ At b (.getSimpleNum 0) ∧ NumVar b.st 0 ∧
    b.stack.length < 16 := by
  refine ⟨_, _, ⟨.stored, _, rfl, rfl, rfl⟩, ⟨_, rfl, rfl, rfl⟩, rfl, rfl, ⟨_, rfl, rfl⟩,
    .step (i := .setSimpleStr 1) (.here _) ⟨.stored, _, rfl, rfl, rfl⟩ (by simp [Assigns]) rfl,
    ⟨.stored, _, rfl, rfl, rfl⟩, ⟨_, rfl, rfl, rfl⟩, by decide⟩
example : ∃ a b, At { three with cs := { three.cs with pc := 1 } } (.setSimpleStr 1) ∧
    V.execute Demo.env { three with cs := { three.cs with pc := 1 } } = .ok () a ∧ Quiet Demo.env 1 a b ∧
    str b.st 1 = "C".toList := by
  refine ⟨_, _, ⟨.stored, _, rfl, rfl, rfl⟩, rfl,
    .step (i := .getSimpleNum 0) (.here _) ⟨.stored, _, rfl, rfl, rfl⟩ (by simp [Assigns]) rfl, rfl⟩

set_option maxRecDepth 100000 in
example : Demo.shows
    "10 A=1:A$=\"X\":A(1)=9\n20 FOR I=1 TO 2:A=A+I:NEXT\n30 DEF FNA(A)=A*2\n40 PRINT A;A$;FNA(8);A;I;B\nRUN\n"
    = .ok "> > > > >  4 X 16  4  2  0 \n".toList := by decide +kernel

end LB
