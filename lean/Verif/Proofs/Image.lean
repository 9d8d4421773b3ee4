import Verif.Proofs.Travel
import Verif.Proofs.Loops
/- A running program in the machine, and the situation it stands for. -/
namespace LB
open LB.Spec _root_.Spec

/- ### Lists side by side -/

/-- The two lists have equally many entries, which are related one by one. -/
inductive Beside {α β : Type} (R : α → β → Prop) : List α → List β → Prop
  | nil : Beside R [] []
  | cons {a b l m} : R a b → Beside R l m → Beside R (a :: l) (b :: m)

namespace Beside
variable {α β : Type} {R : α → β → Prop} {l : List α} {m : List β}

theorem length (h : Beside R l m) : m.length = l.length := by
  induction h with
  | nil => rfl
  | cons _ _ ih => simp [ih]

theorem get (h : Beside R l m) : ∀ {i : Nat} {a : α}, l[i]? = some a → ∃ b, m[i]? = some b ∧ R a b := by
  induction h with
  | nil => intro i a h; simp at h
  | @cons a b l m h _ ih =>
    intro i x hx
    cases i with
    | zero => cases hx; exact ⟨b, rfl, h⟩
    | succ i => exact ih (by simpa using hx)

theorem getNone (h : Beside R l m) {i : Nat} (hi : l[i]? = none) : m[i]? = none := by
  rw [List.getElem?_eq_none_iff] at hi ⊢
  have := h.length
  omega

theorem mem (h : Beside R l m) {b : β} (hb : b ∈ m) : ∃ a ∈ l, R a b := by
  induction h with
  | nil => cases hb
  | @cons a c l m h _ ih =>
    rcases List.mem_cons.1 hb with rfl | hb
    · exact ⟨a, List.mem_cons_self, h⟩
    · obtain ⟨a', h1, h2⟩ := ih hb
      exact ⟨a', List.mem_cons_of_mem _ h1, h2⟩

theorem eraseIdx (h : Beside R l m) : ∀ i : Nat, Beside R (l.eraseIdx i) (m.eraseIdx i) := by
  induction h with
  | nil => intro i; exact .nil
  | cons h k ih =>
    intro i
    cases i with
    | zero => exact k
    | succ i => exact .cons h (ih i)

theorem append {l' : List α} {m' : List β} (h : Beside R l m) (k : Beside R l' m') : Beside R (l ++ l') (m ++ m') := by
  induction h with
  | nil => exact k
  | cons h _ ih => exact .cons h ih

theorem filter (h : Beside R l m) {p : α → Bool} {q : β → Bool} (hp : ∀ a b, R a b → p a = q b) : Beside R (l.filter p) (m.filter q) := by
  induction h with
  | nil => exact .nil
  | @cons a b l m h _ ih =>
    simp only [List.filter_cons, hp a b h]
    split
    · exact .cons h ih
    · exact ih

theorem findIdx? (h : Beside R l m) {p : α → Bool} {q : β → Bool} (hp : ∀ a b, R a b → p a = q b) : m.findIdx? q = l.findIdx? p := by
  induction h with
  | nil => rfl
  | @cons a b l m h _ ih => simp only [List.findIdx?_cons, hp a b h, ih]

end Beside

/- ### Places in the code -/

/-- A compiled program: its lines, its code, the names at that time, what the machine keeps of it, and what had been
written before it was started. -/
structure Image where
  prog : Src.Program
  code : List Inst
  st : SymTab
  index : LineMap
  stored : Code
  out : CStr

/-- The code from `k` on is that of the program from the place `p` on. -/
def Stands (I : Image) (p : Src.Place) (k : Nat) : Prop :=
  if p.2 = 0 then LinesCode I.st p.1 (I.prog.drop p.1) (I.code.drop k)
  else ∃ n ss c d, I.prog[p.1]? = some (n, ss) ∧ p.2 < ss.length ∧ StmtsCode I.st (ss.drop p.2) c ∧
    LinesCode I.st (p.1 + 1) (I.prog.drop (p.1 + 1)) d ∧ I.code.drop k = c ++ d

theorem stmts_nil {st : SymTab} {c : List Inst} (h : StmtsCode st [] c) : c = [] := by cases h; rfl

theorem stands_after {I : Image} {i j n : Nat} {ss : List Src.Stmt} (hp : I.prog[i]? = some (n, ss)) {c d : List Inst}
    (hc : StmtsCode I.st (ss.drop (j + 1)) c) (hd : LinesCode I.st (i + 1) (I.prog.drop (i + 1)) d) {k : Nat} (hk : I.code.drop k = c ++ d) :
    Stands I (Src.after ss (i, j)) k := by
  simp only [Src.after]
  by_cases h : j + 1 < ss.length
  · rw [if_pos h]
    simp only [Stands]
    rw [if_neg (by omega)]
    exact ⟨n, ss, c, d, hp, h, hc, hd, hk⟩
  · rw [if_neg h]
    rw [List.drop_eq_nil_of_le (by omega)] at hc
    rw [stmts_nil hc, List.nil_append] at hk
    simp only [Stands, if_true, hk]
    exact hd

/-- Execution is in the stored program, `off` after the code state, at the place `p`. -/
def CsAt (I : Image) (off : Nat) (p : Src.Place) (cs : CodeState) : Prop :=
  cs.code = some .stored ∧ Stands I p (cs.pc + off) ∧ (p.2 ≠ 0 → cs.sourceLine = p.1)

/-- The entry for the loop. -/
structure LoopOk (I : Image) (l : Src.Loop) (f : ForLoop) : Prop where
  body : CsAt I 1 l.body f.codeState
  var : Numbered I.st l.var .num f.symbolId
  limit : f.limit = l.limit
  step : f.step = l.step

/-- Every IF with an ELSE part has its ELSE in the line. -/
def HasElse (ss : List Src.Stmt) : Prop := ∀ (j : Nat) e, ss[j]? = some (.ifElse e) → ∃ s ∈ ss.drop (j + 1), s.isElse = true

/-- The program was compiled. -/
structure Image.Ok (I : Image) : Prop where
  lines : LinesCode I.st 0 I.prog I.code
  found : ∀ n i, I.prog.findIdx? (fun l => l.1 == n) = some i → ∃ pc, lookupLineMapping I.index n = some pc ∧ LinesCode I.st i (I.prog.drop i) (I.code.drop pc)
  missing : ∀ n, I.prog.findIdx? (fun l => l.1 == n) = none → lookupLineMapping I.index n = none
  elses : ∀ l ∈ I.prog, HasElse l.2
  fits : I.prog.Fits
  bcode : ∃ d, I.stored.bcode = some ⟨I.code, d⟩ ∧ (d = true ↔ I.prog.data ≠ [])
  indexed : I.stored.index = some I.index

/-- DATA and input. -/
structure Outside (I : Image) (c : Src.Config) (vm : VM) : Prop where
  data : items (I.code.drop vm.programData) = I.prog.data.drop c.data
  stdin : vm.world.stdin = c.stdin
  line : vm.input = c.line
  mark : c.mark = if vm.inputPrompt then "? ".toList else []

/-- The situation in which the machine is, but for the place. -/
structure Standing (I : Image) (c : Src.Config) (vm : VM) : Prop where
  stored : vm.stored = I.stored
  named : WellNamed vm.st
  small : vm.st.psym.length ≤ 65536
  grows : Grows I.st vm.st
  tidy : AllSym TidySym vm.st
  kinds : Kinds I.prog.room vm.st vm.fn c.fns
  store : storeOf vm = c.toStore
  calls : Beside (CsAt I 0) c.calls vm.retstack
  loops : Beside (LoopOk I) c.loops vm.forStack
  begun : ∀ f ∈ vm.forStack, ∃ s, vm.st.psym[f.symbolId]? = some s ∧ s.defined = true
  one : OnePerVariable vm.forStack
  col : vm.col = c.col
  width : c.col < 4294967296
  out : vm.world.out = I.out ++ c.out
  traceBasic : vm.traceBasic = false
  traceFor : vm.traceFor = false
  deep : vm.forStack.length ≤ 8
  io : Outside I c vm

/-- What comes after the statement with the place `p` of the line `ss`. -/
structure Tail (I : Image) (p : Src.Place) (ss : List Src.Stmt) (tail : List Inst) : Prop where
  line : ∃ n, I.prog[p.1]? = some (n, ss)
  code : ∃ c d, StmtsCode I.st (ss.drop (p.2 + 1)) c ∧ LinesCode I.st (p.1 + 1) (I.prog.drop (p.1 + 1)) d ∧ tail = c ++ d

/-- The code from `k` on is that of the INPUT statement at the place `p`. -/
def Asks (I : Image) (p : Src.Place) (k : Nat) : Prop :=
  ∃ ss tail prompt vs cd, Tail I p ss tail ∧ ss[p.2]? = some (.input prompt vs) ∧ InputCode I.st vs cd ∧ I.code.drop k = .inputBuf prompt :: (cd ++ tail)

/-- Execution is in the stored program, at an INPUT statement that is performed again. -/
def Again (I : Image) (p : Src.Place) (cs : CodeState) : Prop := cs.code = some .stored ∧ cs.sourceLine = p.1 ∧ Asks I p cs.pc

/-- The machine is in the situation. -/
structure Matches (I : Image) (c : Src.Config) (vm : VM) : Prop where
  base : Standing I c vm
  stack : vm.stack = []
  strstack : vm.strstack = []
  place : CsAt I 0 c.place vm.cs ∨ Again I c.place vm.cs
  going : vm.stopped = false

/-- The machine after an error. -/
structure Left (I : Image) (e : RunError) (c : Src.Config) (vm : VM) : Prop where
  stored : vm.stored = I.stored
  store : storeOf vm = c.toStore
  going : vm.stopped = false
  out : e ≠ .forTooDeep → vm.world.out = I.out ++ c.out
  stdin : vm.world.stdin = c.stdin
  line : vm.input = c.line

/-- After some steps there is an error. -/
def Fails (env : Env) (I : Image) (e : RunError) (c : Src.Config) (vm : VM) : Prop :=
  ∃ n m vm', Travels env vm n m ∧ m.stopped = false ∧ V.execute env m = .err e vm' ∧ Left I e c vm'

/-- The machine does what the program does; if it does nothing, the program goes to `q`. -/
def Mimics (env : Env) (I : Image) (q : Src.Place) (vm : VM) : Src.Next → Prop
  | .go c => ∃ n vm', Travels env vm n vm' ∧ Matches I c vm' ∧ (n = 0 → c.place = q)
  | .stop (.error e) c => Fails env I e c vm
  | .stop .finished c => ∃ n m, Travels env vm n m ∧ Standing I c m ∧ m.stopped = false ∧ m.cs.code = some .stored ∧ I.code.length ≤ m.cs.pc
  | .stop .stopped c => ∃ n m, Travels env vm n m ∧ Standing I c m ∧ m.stopped = true ∧ m.cs.code = some .stored ∧ m.cs.sourceLine = c.place.1 ∧
      m.stack = [] ∧ m.strstack = [] ∧ ∃ ss tail, Tail I c.place ss tail ∧ I.code.drop m.cs.pc = .stop :: tail
  | .stop .unknown _ => True

theorem Fails.after {env : Env} {I : Image} {e : RunError} {c : Src.Config} {a b : VM} {n : Nat} (ht : Travels env a n b) (h : Fails env I e c b) : Fails env I e c a := by
  obtain ⟨k, m, vm', h1, h2⟩ := h
  exact ⟨n + k, m, vm', ht.trans h1, h2⟩

theorem Mimics.after {env : Env} {I : Image} {q : Src.Place} {r : Src.Next} {a b : VM} {n : Nat} (ht : Travels env a n b) (h : Mimics env I q b r) : Mimics env I q a r := by
  cases r with
  | go c =>
    obtain ⟨k, vm', h1, h2, h3⟩ := h
    exact ⟨n + k, vm', ht.trans h1, h2, fun h => h3 (by omega)⟩
  | stop e c =>
    cases e with
    | finished => obtain ⟨k, m, h1, h2⟩ := h; exact ⟨n + k, m, ht.trans h1, h2⟩
    | stopped => obtain ⟨k, m, h1, h2⟩ := h; exact ⟨n + k, m, ht.trans h1, h2⟩
    | error e => exact Fails.after ht h
    | unknown => trivial

namespace Standing
variable {I : Image} {c : Src.Config} {vm : VM}

/-- What the situation depends on. -/
theorem move (h : Standing I c vm) {vm' : VM} {p : Src.Place} (h1 : vm'.stored = vm.stored := by rfl) (h2 : vm'.st = vm.st := by rfl) (h3 : vm'.retstack = vm.retstack := by rfl)
    (h4 : vm'.forStack = vm.forStack := by rfl) (h5 : vm'.col = vm.col := by rfl) (h6 : vm'.world.out = vm.world.out := by rfl)
    (h7 : vm'.traceBasic = vm.traceBasic := by rfl) (h8 : vm'.traceFor = vm.traceFor := by rfl)
    (h9 : vm'.programData = vm.programData := by rfl) (h10 : vm'.world.stdin = vm.world.stdin := by rfl) (h11 : vm'.input = vm.input := by rfl)
    (h12 : vm'.inputPrompt = vm.inputPrompt := by rfl) (h13 : vm'.world.rng = vm.world.rng := by rfl) (h14 : vm'.world.ticks = vm.world.ticks := by rfl)
    (h15 : vm'.fn = vm.fn := by rfl) : Standing I { c with place := p } vm' :=
  ⟨h1.trans h.stored, h2 ▸ h.named, h2 ▸ h.small, h2 ▸ h.grows, h2 ▸ h.tidy, by rw [h2, h15]; exact h.kinds, by rw [← h.store]; unfold storeOf; rw [h2, h13, h14], h3 ▸ h.calls, h4 ▸ h.loops,
    by rw [h2, h4]; exact h.begun, h4 ▸ h.one, h5 ▸ h.col, h.width, h6 ▸ h.out, h7 ▸ h.traceBasic, h8 ▸ h.traceFor, h4 ▸ h.deep,
    by rw [h9]; exact h.io.data, h10 ▸ h.io.stdin, h11 ▸ h.io.line, by rw [h12]; exact h.io.mark⟩

theorem left (h : Standing I c vm) (hs : vm.stopped = false) (e : RunError) : Left I e c vm := ⟨h.stored, h.store, hs, fun _ => h.out, h.io.stdin, h.io.line⟩

theorem inst (h : Standing I c vm) (hI : I.Ok) (hc : vm.cs.code = some .stored) (k : Nat) : instAt vm k = I.code[k]? := by
  obtain ⟨d, hd, _⟩ := hI.bcode
  simp only [instAt, hc, Option.bind_some, V.codeOf, h.stored, hd]

theorem at_inst (h : Standing I c vm) (hI : I.Ok) (hc : vm.cs.code = some .stored) {i : Inst} {rest : List Inst} (hk : I.code.drop vm.cs.pc = i :: rest) : At vm i := by
  apply at_instAt
  rw [h.inst hI hc]
  have := congrArg (·[0]?) hk
  simpa using this

theorem onlyReads {vm' : VM} {s : Store} (h : Standing I c vm) (ho : Elsewhere vm vm') (hn : vm'.fn.codeState.code = none) (hw : storeOf vm' = s) : Standing I { c with toStore := s } vm' := by
  have hr := ho.rest
  refine ⟨?_, onlyReads_wellNamed ho h.named, by rw [ho.names.2.2]; exact h.small, h.grows.trans (onlyReads_grows (a := { vm with cs := vm'.cs, fn := vm'.fn, defCode := vm'.defCode }) ho), onlyReads_tidy ho h.tidy,
    Kinds.reads ho ⟨h.kinds.known, hn, h.kinds.functions⟩, hw,
    ?_, ?_, ?_, ?_, ?_, h.width, ?_, ?_, ?_, ?_, ?_⟩
  · rw [hr]; exact h.stored
  · rw [hr]; exact h.calls
  · rw [hr]; exact h.loops
  · have hf : vm'.forStack = vm.forStack := by rw [hr]
    rw [hf]
    intro f hf
    obtain ⟨s, hs, hd⟩ := h.begun f hf
    have hlt : f.symbolId < vm'.st.psym.length := by rw [ho.names.2.2]; exact (List.getElem?_eq_some_iff.1 hs).1
    refine ⟨_, List.getElem?_eq_getElem hlt, ?_⟩
    have hseen := ho.syms f.symbolId s _ hs (List.getElem?_eq_getElem hlt)
    generalize vm'.st.psym[f.symbolId] = t at hseen
    cases hseen with
    | same => exact hd
    | num _ _ h | str _ _ h | numarr _ _ h | strarr _ _ h | nonum _ _ h | nostr _ _ h => exact absurd (hd.symm.trans h) (by decide)
  · rw [hr]; exact h.one
  · rw [hr]; exact h.col
  · rw [hr]; exact h.out
  · rw [hr]; exact h.traceBasic
  · rw [hr]; exact h.traceFor
  · rw [hr]; exact h.deep
  · refine ⟨?_, ?_, ?_, ?_⟩
    · rw [hr]; exact h.io.data
    · rw [hr]; exact h.io.stdin
    · rw [hr]; exact h.io.line
    · rw [hr]; exact h.io.mark

/-- An expression. -/
theorem value (h : Standing I c vm) (hI : I.Ok) (hc : vm.cs.code = some .stored) (hs : vm.stopped = false) {t : Ty} {e : Expr t} {cd rest : List Inst}
    (he : Postfix I.st e cd) (h1 : vm.stack.length + e.nums + I.prog.room.1 ≤ 16) (h2 : vm.strstack.length + e.strs + I.prog.room.2 ≤ 8) (hk : I.code.drop vm.cs.pc = cd ++ rest) (env : Env)
    (hr : rest ≠ [] := by simp) :
    (∀ x s, Src.meaning env c.fns e c.toStore = .ok x s → ∃ n vm', Travels env vm n vm' ∧ Standing I { c with toStore := s } vm' ∧ vm'.stopped = false ∧
      vm'.cs = { vm.cs with pc := vm.cs.pc + cd.length } ∧ I.code.drop vm'.cs.pc = rest ∧ (vm'.stack, vm'.strstack) = pushed x vm ∧
      vm'.inp = vm.inp ∧ vm'.inputPc = vm.inputPc) ∧
    (∀ er s, Src.meaning env c.fns e c.toStore = .error er s → Fails env I er { c with toStore := s } vm) := by
  obtain ⟨k1, k2⟩ := eval (env := env) h.named h.small h.kinds (he.grow h.grows) h1 h2 hs hc (by
    intro j i hj
    rw [h.inst hI hc]
    have := congrArg (·[j]?) hk
    simp only [List.getElem?_drop] at this
    rw [this, List.getElem?_append_left (List.getElem?_eq_some_iff.1 hj).1, hj]) (by
    rw [h.inst hI hc]
    cases rest with
    | nil => exact absurd rfl hr
    | cons i rest =>
      have := congrArg (·[cd.length]?) hk
      simp only [List.getElem?_drop] at this
      exact ⟨i, by rw [this]; simp⟩)
  rw [h.store] at k1 k2
  refine ⟨fun x s hx => ?_, fun er s her => ?_⟩
  · obtain ⟨n, vm', m1, m2, m6, m3, m4, m5⟩ := k1 x s hx
    have hst : vm'.stopped = false := by
      have := m2.rest
      rw [this]; exact hs
    refine ⟨n, vm', m1, h.onlyReads m2 m6 m5, hst, m3, ?_, m4, by rw [m2.rest], by rw [m2.rest]⟩
    rw [m3]
    simp only [← List.drop_drop, hk]
    rw [List.drop_append_of_le_length (Nat.le_refl _), List.drop_length, List.nil_append]
  · obtain ⟨n, m, vm', m1, m2, m3, m4, m5⟩ := k2 er s her
    exact ⟨n, m, vm', m1, m2, m3, m4.stored.trans h.stored, m5, m4.stopped.trans hs, fun _ => m4.out.trans h.out, m4.stdin.trans h.io.stdin, m4.input.trans h.io.line⟩

end Standing
end LB
