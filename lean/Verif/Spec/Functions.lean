import Verif.Spec.Machine
/- What a call of a function made with DEF means. -/
namespace LB.Spec

/-- Instructions that compute with numbers and strings: constants, variables, elements of arrays and calls of functions,
operators and built-in functions. -/
def computing : Inst → Bool
  | .pushNum _ | .popNum | .getSimpleNum _ | .getParenNum _ _ | .arith _ | .cmpNum _ | .or | .and | .not | .neg
  | .pushStr _ | .popStr | .getSimpleStr _ | .getParenStr _ _ | .cmpStr _ | .concat | .bi _ => true
  | _ => false

/-- The instruction calls the function `s`. -/
inductive CallOf (st : SymTab) : Inst → Nat → Symbol → Prop
  | num {id n s} : st.psym[id]? = some s → s.kind = .def_ → s.type = .num → CallOf st (.getParenNum id n) n s
  | str {id n s} : st.psym[id]? = some s → s.kind = .def_ → s.type = .str → CallOf st (.getParenStr id n) n s

/-- The evaluation of the body of a function from a machine.  An instruction that does not call a function does what it
does anywhere; RND may have to be tried again.  A function within a function cannot be called. -/
inductive Computes (env : Env) : List Inst → VM → Res Unit → Prop
  | done {vm} : Computes env [] vm (.ok () vm)
  | next {i l vm vm' r} : (∀ n s, ¬ CallOf vm.st i n s) → V.exec env i vm = .ok .brk vm' → Computes env l vm' r → Computes env (i :: l) vm r
  | again {i l vm vm' r} : (∀ n s, ¬ CallOf vm.st i n s) → V.exec env i vm = .ok .ret vm' → Computes env (i :: l) vm' r → Computes env (i :: l) vm r
  | err {i l vm vm' e} : (∀ n s, ¬ CallOf vm.st i n s) → V.exec env i vm = .err e vm' → Computes env (i :: l) vm (.err e vm')
  | halt {i l vm h} : (∀ n s, ¬ CallOf vm.st i n s) → V.exec env i vm = .halt h → Computes env (i :: l) vm (.halt h)
  | nested {i l vm n s} : CallOf vm.st i n s → s.defined = true → s.def_.isSome = true → Computes env (i :: l) vm (.err .nestedCall vm)
  | undefined {i l vm n s} : CallOf vm.st i n s → s.defined = false → Computes env (i :: l) vm (.err .notDefined vm)

/-- The machine is about to call, with the argument `x`, the function with the code `d`, that has the parameter `p` and
the body `e`; `rest` lies below the argument; no other function is being called, and the code goes on after the call. -/
structure CallsFn (vm : VM) (d : Def) (p : Nat) (e : List Inst) (x : Dbl) (rest : List Dbl) : Prop where
  call : ∃ i s, At vm i ∧ CallOf vm.st i 1 s ∧ s.defined = true ∧ s.def_ = some d
  idle : vm.fn.codeState.code = none
  more : ∃ i, At { vm with cs := following vm.cs } i
  code : ∃ f, d.bcode.inst = .def_ f 1 :: .param p :: (e ++ [.endDef])
  body : ∀ i ∈ e, computing i = true
  param : NumVar vm.st p
  arg : vm.stack = x :: rest

/-- The machine with the argument taken from the stack and given to the parameter. -/
def bound (vm : VM) (p : Nat) (x : Dbl) (rest : List Dbl) : VM :=
  { vm with stack := rest, st := symUpdate vm.st p (fun s => { s with num := x, defined := true }) }

/-- What reading a variable or an element of an array may do to it: what was not given a value yet comes to hold 0 or the
empty string, and an array that cannot be made stays without elements. -/
inductive Seen : Symbol → Symbol → Prop
  | same {s} : Seen s s
  | num {s} : s.kind = .variable → s.type = .num → s.defined = false → Seen s { s with num := .fin 0, defined := true }
  | str {s} : s.kind = .variable → s.type = .str → s.defined = false → Seen s { s with str := none, defined := true }
  | numarr {s a} : s.kind = .array → s.type = .num → s.defined = false → (∀ y ∈ a.val, y = .fin 0) →
      Seen s { s with numarr := some a, defined := true }
  | strarr {s a} : s.kind = .array → s.type = .str → s.defined = false → (∀ y ∈ a.val, y = none) →
      Seen s { s with strarr := some a, defined := true }
  | nonum {s} : s.kind = .array → s.type = .num → s.defined = false → Seen s { s with numarr := none, defined := false }
  | nostr {s} : s.kind = .array → s.type = .str → s.defined = false → Seen s { s with strarr := none, defined := false }

/-- From `a` to `b` nothing changes but the evaluation stacks, the random numbers drawn, the readings of the clock, and
that variables not given a value yet may come to hold 0 or the empty string. -/
structure OnlyReads (a b : VM) : Prop where
  rest : b = { a with stack := b.stack, strstack := b.strstack, st := b.st, world := { a.world with rng := b.world.rng, ticks := b.world.ticks } }
  names : b.st.hash = a.st.hash ∧ b.st.nextId = a.st.nextId ∧ b.st.psym.length = a.st.psym.length
  syms : ∀ (j : Nat) s t, a.st.psym[j]? = some s → b.st.psym[j]? = some t → Seen s t

/-- `b` is the machine `a` after the call of a function with the parameter `p`, whose body was evaluated to the machine
`w`: execution is right after the call, the value is on the stack as the body left it, the parameter is exactly what it
was, other variables are what they were, and nothing else is changed. -/
structure Returned (a : VM) (p : Nat) (w b : VM) : Prop where
  place : b.cs = following a.cs
  free : b.fn.codeState.code = none
  stack : b.stack = w.stack
  strstack : b.strstack = w.strstack
  param : b.st.psym[p]? = a.st.psym[p]?
  syms : ∀ (j : Nat) s t, a.st.psym[j]? = some s → b.st.psym[j]? = some t → Seen s t
  names : b.st.hash = a.st.hash ∧ b.st.nextId = a.st.nextId ∧ b.st.psym.length = a.st.psym.length
  rest : b = { a with cs := b.cs, stack := b.stack, strstack := b.strstack, st := b.st, fn := b.fn, defCode := b.defCode,
                      world := { a.world with rng := w.world.rng, ticks := w.world.ticks } }

end LB.Spec
