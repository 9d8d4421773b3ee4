import Verif.Proofs.Printing
import Verif.Proofs.StateMoment
import Verif.Proofs.Index
import Verif.Proofs.DemoState
import Verif.Proofs.DemoSpell
import Verif.Props.Lexer
import Verif.Props.Numbers
import Verif.Props.Fresh
/-
C39: the value of an expression.
-/
namespace LB
open LB.Spec _root_.Spec

/-- C39.  Any text that the grammar reads as an expression is compiled, whatever was compiled before it: if the text
left on the line starts with the tokens of the expression followed by a token that cannot continue it, then the code of
the expression is appended (operands before operators, from left to right), its type is the type of the expression, and
the compiler stands at the token after it. -/
theorem C39_compiles_partial {any : Bool} {p : Parser} {r r' : CStr} {l : List Lexeme} {k : Tok} {t : Ty} {e : Expr t} (hw : WellNamed p.st)
    (hp : p.lex.prefixes = any) (hr : Left p.lex r) (hl : SpellsAs any r (l ++ [.op k]) r') (h : Phrase .or l e) (hk : ¬ Continues k) :
    ∃ t0 lex0 p' c, lexNext p.lex = .ok (t0, lex0) ∧ P.expression { p with lex := lex0 } = .ok t p' ∧
      p'.bcode = { p.bcode with inst := p.bcode.inst ++ c } ∧ Postfix p'.st e c ∧ p'.lex.token = k ∧ Left p'.lex r' := by
  obtain ⟨lex', h1, h2, _, h3⟩ := spells_lexes hl (a := opTok '\n') (fun vs h => by cases h) hp hr
  obtain ⟨a, l', rfl, _⟩ := phrase_first h
  obtain ⟨t1, lex1, h4, h5, h6⟩ := h1.scans
  have h6 : lex'.token = k := h6
  obtain ⟨text, ht, hpos, _⟩ := hr
  have hT := lexNext_tame (pre := p.lex.prefixes) (p := p.lex.pos) (t := text) (lex := p.lex) ⟨ht, hpos, Nat.le_refl _, rfl⟩
  rw [h4] at hT
  obtain ⟨p', h7, h8⟩ := expression_put (p := { p with lex := lex1 }) hw h hT.1.text hT.1.le h5 (by rw [h6]; exact hk)
  obtain ⟨c, h9, h10⟩ := h8.code
  exact ⟨t1, lex1, p', c, h4, h7, h9, h10, by rw [show p'.lex = _ from h8.lex]; exact h6, by rw [show p'.lex = _ from h8.lex]; exact h2⟩

/-- C39.  Wherever the code of an expression stands in a program or typed line, executing it leaves exactly the value of
the expression on top of the stack and goes on after it, or stops with the error of the expression.  What variables and
elements of arrays stand for, the random numbers to come and the readings of the clock are then as the evaluation says;
nothing else changes, except that variables not given a value yet may come to hold 0 or the empty string. -/
theorem C39_evaluates_partial {may : Cmd → VM → Prop} {ph : Phase} {vm : VM} (env : Env) (h : State may ph vm) (hs : vm.stopped = false)
    {t : Ty} {e : Expr t} {c : List Inst}
    (hc : Postfix vm.st e c) (hat : ∀ j i, c[j]? = some i → instAt vm (vm.cs.pc + j) = some i) (hn : vm.st.psym.length ≤ 65536)
    (hu : ∀ s ∈ vm.st.psym, s.kind ≠ .unknown) (hf : NoFunctions e vm.st)
    (h1 : vm.stack.length + e.nums ≤ 16) (h2 : vm.strstack.length + e.strs ≤ 8) :
    (∀ x s, e.eval env (storeOf vm) = .ok x s →
      ∃ n vm', after env n vm = some vm' ∧ OnlyReads { vm with cs := { vm.cs with pc := vm.cs.pc + c.length } } vm' ∧ storeOf vm' = s ∧
        (t = .num → ∃ y : Dbl, x ≍ y ∧ vm'.stack = y :: vm.stack ∧ vm'.strstack = vm.strstack) ∧
        (t = .str → ∃ s : CStr, x ≍ s ∧ vm'.stack = vm.stack ∧ vm'.strstack = s :: vm.strstack)) ∧
    (∀ er s, e.eval env (storeOf vm) = .error er s →
      ∃ n m vm', after env n vm = some m ∧ V.execute env m = .err er vm' ∧ vm'.world.out = vm.world.out ∧ storeOf vm' = s) := by
  have hw := moment_names (state_moment h)
  have hy := yields_postfix (env := env) (C := NoCalls) (get := element) (m := 0) (k := 0) (base := vm) hw hn hu hc (fun w h => handles_array hw (hf w h)) (vm := vm) (OnlyReads.refl vm) h1 h2
  change Yields env NoCalls vm (e.eval env) c vm at hy
  have hb0 : V.over (placed vm vm.cs.pc) vm = vm := over_placed (OnlyReads.refl vm)
  have hcomp := postfix_computing hc
  have hcall := postfix_noCall hw hn hc hf
  unfold Yields at hy
  refine ⟨fun x s hx => ?_, fun er s hx => ?_⟩
  · rw [hx] at hy
    obtain ⟨w, hw1, hw2, hw4, hw3⟩ := hy
    obtain ⟨n, k2⟩ := (stretch hs hw1.plain hcomp hcall (k := vm.cs.pc) (OnlyReads.refl vm) hat).1 w rfl
    rw [hb0, over_placed hw2] at k2
    refine ⟨n, _, k2.after.1, ⟨by conv => lhs; rw [hw2.rest], hw2.names, hw2.syms⟩, hw4, ?_, ?_⟩
    · rintro rfl
      exact ⟨x, HEq.rfl, pushed_num hw3⟩
    · rintro rfl
      exact ⟨x, HEq.rfl, pushed_str hw3⟩
  · rw [hx] at hy
    obtain ⟨w, hw1, hw2, hw3⟩ := hy
    obtain ⟨n, m, j, k1, _, k3⟩ := (stretch hs hw1.plain hcomp hcall (k := vm.cs.pc) (OnlyReads.refl vm) hat).2 er w rfl
    rw [hb0] at k1
    exact ⟨n, m, _, k1.after.1, k3, by rw [show w = _ from hw2]; rfl, hw3⟩

/-- C39.  Typing PRINT and any expression made of numbers, strings, simple variables, elements of arrays, operators,
parentheses and built-in functions prints the value that the grammar gives to it and ends the line, or reports the error
of the first operation, from left to right, that has one.  Variables and arrays are then as the evaluation says: no
variable changes, and an array whose element is asked for is made if it is not there. -/
theorem C39_print_partial {may : Cmd → VM → Prop} {vm vm' : VM} {line : CStr} {l : List Lexeme} {t : Ty} {e : Expr t} (h : State may .idle vm)
    (hc : ensureProgramCompiled { vm with immediate := {} } = .ok (true, vm'))
    (hl : Spells line (.op (.kw .PRINT) :: l ++ [opTok '\n']) []) (he : Phrase .or l e)
    (hn : ∀ w, l.head? = some (.name w) → ¬ SameIgnoringCase w "SPC".toList ∧ ¬ SameIgnoringCase w "TAB".toList) (hf : NoFunctions e vm'.st)
    (h1 : vm'.stack.length + e.nums ≤ 16) (h2 : vm'.strstack.length + e.strs ≤ 8) (h3 : vm'.st.psym.length + e.vars ≤ 65536)
    (htr : vm'.traceBasic = false) (env : Env) (hk : e.eval env (storeOf vm') ≠ .unknown) {brk : Nat → Bool} (hb : ∀ k, brk k = false) :
    ∃ n0, ∀ n, n0 ≤ n → ∃ r vm'', runImmediate env brk n vm line = .ok (some r, vm'') ∧ r.interrupted = false ∧
      Shows (e.eval env (storeOf vm')) vm' r vm'' := by
  have hw : WellNamed vm'.st := moment_names (state_moment (State.compile true (State.noImmediate h) hc))
  obtain ⟨c, st, hp, k1, k2, k3⟩ := print_source hw hl he hn
  obtain ⟨idx, hidx⟩ := bcodeIndex_total (bc := ⟨.sourceLine 0 :: c ++ [printInst t, .printLn], false⟩) (src := wrapSourceText line) (by
    intro l hl
    simp only [List.mem_append, List.mem_cons, List.not_mem_nil, or_false] at hl
    rcases hl with (hl | hl) | hl | hl
    · cases hl; simp [wrapSourceText]
    · have := postfix_computing k1 _ hl
      cases this
    · cases t <;> cases hl
    · cases hl)
  have k4 := k3.trans (unknown_added st fun _ _ _ ⟨_, h, _⟩ => by cases h)
  have hlen : (symMakeUnknownArray st).psym.length ≤ 65536 := Nat.le_trans k4.most (by omega)
  let vm0 : VM := { vm' with st := symMakeUnknownArray st, immediate := ⟨some (wrapSourceText line), some ⟨.sourceLine 0 :: c ++ [printInst t, .printLn], false⟩, some idx⟩, immediateData := 0, cs := { code := some .immediate, sourceLine := 0, pc := 0 }, stopped := false }
  have hv : storeOf vm0 = storeOf vm' := storeOf_eq k4.numNamed k4.strNamed k4.numArrs k4.strArrs rfl rfl
  obtain ⟨n0, hn0⟩ := print_loop (env := env) hb (vm := vm0) k2.unknown hlen (unknown_known st) (k4.noFunctions hf) he.type_ne k1.unknown h1 h2 rfl rfl htr rfl
    (by rw [hv]; exact hk)
  refine ⟨n0, fun n hle => ?_⟩
  obtain ⟨r, u, m1, m2, m3, m4, m5⟩ := hn0 n hle
  rw [hv] at m5
  have hrun : run env brk n { vm0 with stopped := vm'.stopped } = .ok (r, u) := by
    simp only [run]
    rw [if_neg (by simp [vm0])]
    have : vmLoop env brk n 0 { ({ vm0 with stopped := vm'.stopped } : VM) with stopped := false } = .ok (r, u) := m1
    rw [this]
    simp [runMessages, m2, m3, recordStopped, m4]
  refine ⟨r, if immediateState u then resetControlState u else u, ?_, m2, ?_⟩
  · simp only [runImmediate, hc, hp, hidx]
    have : run env brk n { vm' with st := symMakeUnknownArray st, immediate := ⟨some (wrapSourceText line), some ⟨.sourceLine 0 :: c ++ [printInst t, .printLn], false⟩, some idx⟩, immediateData := 0, cs := { code := some .immediate, sourceLine := 0, pc := 0 } } = .ok (r, u) := hrun
    rw [this]
  · have ho : (if immediateState u then resetControlState u else u).world = u.world := by split <;> rfl
    have hst : (if immediateState u then resetControlState u else u).st = u.st := by split <;> rfl
    have hso := storeOf_world hst ho
    cases hx : e.eval env (storeOf vm') with
    | ok x s => rw [hx] at m5; exact ⟨m5.1, by rw [ho]; exact m5.2.1, hso.trans m5.2.2⟩
    | error x s => rw [hx] at m5; exact ⟨m5.1, by rw [ho]; exact m5.2.1, hso.trans m5.2.2⟩
    | unknown => exact absurd hx hk

/-- The tokens of `A + 2 * -A ^ 2`. -/
def Demo.tokens : List Lexeme :=
  [.name ['A'], opTok '+', .num (.fin 2), opTok '*', opTok '-', .name ['A'], opTok '^', .num (.fin 2)]

/-- What they mean. -/
def Demo.tree : Expr .num :=
  .arith .add (.numVar ['A']) (.arith .mul (.num (.fin 2)) (.neg (.arith .pow (.numVar ['A']) (.num (.fin 2)))))

theorem Demo.two : Literal ['2'] (.fin 2) :=
  ⟨['2'], ['2'], [], [], 0, rfl, ⟨by simp only [IsDigit]; decide, by decide, .inl ⟨rfl, rfl⟩⟩, .inl ⟨rfl, rfl⟩, by decide,
    Dbl.rounded_iff.2 (by decide +kernel)⟩

theorem Demo.letterA : Name ['A'] := ⟨'A', [], [], rfl, rfl, by decide, .inl rfl⟩

theorem Demo.phrase : Phrase .or Demo.tokens Demo.tree :=
  .conj (.not (.rel (.sum (.add (l := [.name ['A']]) (l' := [.num (.fin 2), opTok '*', opTok '-', .name ['A'], opTok '^', .num (.fin 2)])
    (.mult (.neg (.power (.primary (.numVar rfl (by decide))))))
    (.mul (l := [.num (.fin 2)]) (l' := [opTok '-', .name ['A'], opTok '^', .num (.fin 2)]) (.neg (.power (.primary .num)))
      (.minus (k := 1) (l := [.name ['A'], opTok '^', .num (.fin 2)])
        (.pow (l := [.name ['A']]) (l' := [.num (.fin 2)]) (.numVar rfl (by decide)) (.primary .num))))))))

theorem Demo.notReserved : ∀ v k, (v, k) ∈ reservedWords → ¬ SameIgnoringCase v.toList ['A'] := by
  have : ∀ x ∈ reservedWords, ¬ SameIgnoringCase x.1.toList ['A'] := by decide +kernel
  exact fun v k h => this (v, k) h

theorem Demo.nameEnds (c : Char) (r : CStr) (h : Plain c) (ha : c.isAlphanum = false ∧ c ≠ '$') (w : CStr) : NameEnds w (c :: r) :=
  ⟨by intro d hd; cases hd; exact h, .inr (by intro d hd; cases hd; exact ha)⟩

theorem Demo.spelledTokens : Spells " A+2*-A ^2 ".toList (Demo.tokens ++ [opTok '\n']) [] :=
  .name (b := [' ']) (w := ['A']) (r := "+2*-A ^2 ".toList) (by decide) Demo.letterA (by decide) (.inl (Demo.nameEnds _ _ (by decide) (by decide) _)) (fun g => by cases g) Demo.notReserved
  (.sign (b := []) (r := "2*-A ^2 ".toList) (by decide) (by decide)
  (.num (b := []) (w := ['2']) (r := "*-A ^2 ".toList) (by decide) Demo.two (by decide)
    ⟨by intro c hc; cases hc; decide, by intro c hc; cases hc; simp only [IsDigit]; decide⟩
  (.sign (b := []) (r := "-A ^2 ".toList) (by decide) (by decide)
  (.sign (b := []) (r := "A ^2 ".toList) (by decide) (by decide)
  (.name (b := []) (w := ['A']) (r := " ^2 ".toList) (by decide) Demo.letterA (by decide) (.inl (Demo.nameEnds _ _ (by decide) (by decide) _)) (fun g => by cases g) Demo.notReserved
  (.sign (b := [' ']) (r := "2 ".toList) (by decide) (by decide)
  (.num (b := []) (w := ['2']) (r := " ".toList) (by decide) Demo.two (by decide)
    ⟨by intro c hc; cases hc; decide, by intro c hc; cases hc; simp only [IsDigit]; decide⟩
  (.eol (b := [' ']) (by decide)))))))))

theorem Demo.spelling : Spells " PRINT A+2*-A ^2 ".toList (.op (.kw .PRINT) :: Demo.tokens ++ [opTok '\n']) [] :=
  .keyword (b := [' ']) (w := "PRINT".toList) (v := "PRINT") (r := " A+2*-A ^2 ".toList) (by decide) ⟨'P', "RINT".toList, [], rfl, rfl, by decide, .inl rfl⟩
    (.inl (Demo.nameEnds _ _ (by decide) (by decide) _)) (by decide +kernel) (by decide +kernel) Demo.spelledTokens

example : ∃ n0, ∀ n, n0 ≤ n → ∃ r vm'', runImmediate Demo.env (fun _ => false) n (newVm false false false {}) " PRINT A+2*-A ^2 ".toList = .ok (some r, vm'') ∧
    r.interrupted = false ∧ Shows (Demo.tree.eval Demo.env (storeOf (newVm false false false {}))) (newVm false false false {}) r vm'' :=
  C39_print_partial (may := fun _ _ => False) (.start false false false {}) rfl Demo.spelling Demo.phrase
    (by intro w hw; cases hw; decide +kernel) (by intro w hw; cases hw) (by decide) (by decide) (by decide +kernel) rfl Demo.env (steady_known _ rfl _) (fun _ => rfl)

example : ∃ t0 lex0 p' c, lexNext (lexerAt " A+2*-A ^2 " false) = .ok (t0, lex0) ∧
    P.expression { lex := lex0, bcode := newBcode, st := (newVm false false false {}).st, ifThen := 0 } = .ok .num p' ∧
    p'.bcode = { newBcode with inst := newBcode.inst ++ c } ∧ Postfix p'.st Demo.tree c ∧ p'.lex.token = .ch '\n' ∧ Left p'.lex [] :=
  C39_compiles_partial (p := { lex := lexerAt " A+2*-A ^2 " false, bcode := newBcode, st := (newVm false false false {}).st, ifThen := 0 })
    (moment_names (state_moment (State.start (may := fun _ _ => False) false false false {}))) rfl (lexerAt_left _ _) Demo.spelledTokens Demo.phrase (by decide)

/-- The code of the example. -/
def Demo.postfixCode : List Inst :=
  [.getSimpleNum 26, .pushNum (.fin 2), .getSimpleNum 26, .pushNum (.fin 2), .arith .pow, .neg, .arith .mul, .arith .add]

theorem Demo.isPostfix {st : SymTab} {s : Symbol} (h : st.psym[26]? = some s) (hn : s.name = ['A']) (hk : s.kind = .variable) (ht : s.type = .num) (hi : s.id = 26) :
    Postfix st Demo.tree Demo.postfixCode := by
  have h1 : Postfix st (.numVar ['A']) [.getSimpleNum 26] := hi ▸ .numVar h (by rw [hn]; decide +kernel) hk ht
  exact .arith h1 (.arith .num (.neg (.arith h1 .num)))

/-- The machine is at the code of the example. -/
def Demo.atExpression (vm : VM) : Bool :=
  decide ((List.range 8).map (fun j => instAt vm (vm.cs.pc + j)) = Demo.postfixCode.map some) &&
  decide ((vm.st.psym[26]?).map (fun s => (s.name, s.kind, s.type, s.id)) = some (['A'], .variable, .num, 26)) &&
  decide (vm.st.psym.length ≤ 65536) && decide (vm.stack = []) && decide (vm.strstack = [])

example : ∃ vm, State (fun _ _ => False) .program vm ∧ Postfix vm.st Demo.tree Demo.postfixCode ∧
    (∀ j i, Demo.postfixCode[j]? = some i → instAt vm (vm.cs.pc + j) = some i) ∧ vm.st.psym.length ≤ 65536 ∧
    vm.stack.length + Demo.tree.nums ≤ 16 ∧ vm.strstack.length + Demo.tree.strs ≤ 8 := by
  obtain ⟨vm, h1, h2⟩ := Demo.state (may := fun _ _ => False) (lines := [(10, "LET A=3"), (20, "PRINT A+2*-A^2")]) (n := 4) (P := Demo.atExpression) (by decide +kernel)
  simp only [Demo.atExpression, Bool.and_eq_true, decide_eq_true_eq] at h2
  obtain ⟨⟨⟨⟨h2, h3⟩, h4⟩, h5⟩, h6⟩ := h2
  obtain ⟨s, hs, hx⟩ := Option.map_eq_some_iff.1 h3
  simp only [Prod.mk.injEq] at hx
  refine ⟨vm, h1, Demo.isPostfix hs hx.1 hx.2.1 hx.2.2.1 hx.2.2.2, ?_, h4, by rw [h5]; decide, by rw [h6]; decide⟩
  intro j i hj
  have hlt : j < 8 := (List.getElem?_eq_some_iff.1 hj).1
  have := congrArg (·[j]?) h2
  simp only [List.getElem?_map, List.getElem?_range hlt, Option.map_some, hj] at this
  exact Option.some.inj this

/-- C39.  Expressions without elements of arrays, RND and TIME$ always have a value or an error, and change nothing. -/
theorem C39_steady (env : Env) {t : Ty} {e : Expr t} (h : e.steady = true) (s : Store) :
    (∃ x, e.eval env s = .ok x s) ∨ ∃ er, e.eval env s = .error er s := by
  obtain ⟨r, hr⟩ := steady_ends env h s
  cases r with
  | ok x => exact .inl ⟨x, hr⟩
  | error er => exact .inr ⟨er, hr⟩

example : Demo.tree.steady = true := rfl

/-- C39.  Any number of minus signs means as many negations. -/
theorem C39_minus (env : Env) (e : Expr .num) (k : Nat) :
    (minus k e).eval env = (do
      let x ← e.eval env
      Ev.of (.ok (Nat.repeat Dbl.neg k x))) := by
  have hneg : ∀ x, Dbl.neg (Dbl.neg x) = x := by
    intro x
    cases x with
    | fin q =>
      by_cases h : q = 0
      · simp [Dbl.neg, h]
      · simp only [Dbl.neg, h, if_false]
        rw [if_neg (by grind), Rat.neg_neg]
    | _ => rfl
  have hrep : ∀ k x, Nat.repeat Dbl.neg k x = if k % 2 = 1 then Dbl.neg x else x := by
    intro k
    induction k with
    | zero => intro x; rfl
    | succ k ih =>
      intro x
      rw [Nat.repeat, ih]
      by_cases h : k % 2 = 1
      · rw [if_pos h, if_neg (by omega), hneg]
      · rw [if_neg h, if_pos (by omega)]
  simp only [hrep, minus]
  funext s
  split
  · rfl
  · rw [Ev.bind_apply]
    cases e.eval env s <;> rfl

example (s : Store) : (minus 3 (.num (.fin 2))).eval Demo.env s = .ok (.fin (-2)) s := by
  rw [C39_minus]; rfl

set_option maxRecDepth 100000 in
/-- Two NOTs are compiled to nothing, so NOT NOT 1.5 is 1.5, although NOT 1.5 is an error (as the grammar above says:
the value of `nots 2 e` is the value of `e`). -/
theorem C39_not_not : Demo.shows "PRINT NOT NOT 1.5\nPRINT NOT 1.5\n" = .ok ">  1.5 \n> ".toList := by decide +kernel

set_option maxRecDepth 100000 in
example : Demo.shows "PRINT -2^2;2^3^2;10-4-3;2+3*4=14 AND NOT 1>2\n" = .ok ">  -4  512  3  -1 \n".toList := by decide +kernel

/-- C39.  In the value of expressions, VAL gives the number that the whole text denotes, and fails for other texts. -/
theorem C39_val (s : CStr) :
    (∀ x, StrFn.val.value s = .ok x ↔ Numeric s x) ∧ (StrFn.val.value s = .error .invalidNumber ↔ ¬ ∃ x, Numeric s x) := by
  have h1 : ∀ x, textNumber s = some x ↔ Numeric s x := by
    intro x
    rw [← convert_whole s x]
    unfold textNumber
    split
    · rename_i y hy; rw [hy]; simp
    · rename_i hy
      refine ⟨fun h => (by cases h), fun h => absurd h (hy x)⟩
  cases ht : textNumber s with
  | some y =>
    have hv : StrFn.val.value s = .ok y := by simp only [StrFn.value, ht]
    refine ⟨fun x => ?_, ?_⟩
    · rw [hv, ← h1, ht]; simp
    · rw [hv]
      exact ⟨fun h => (by cases h), fun h => absurd ⟨y, (h1 y).1 ht⟩ h⟩
  | none =>
    have hv : StrFn.val.value s = .error .invalidNumber := by simp only [StrFn.value, ht]
    refine ⟨fun x => ?_, ?_⟩
    · rw [hv, ← h1, ht]; simp
    · rw [hv]
      refine ⟨fun _ => ?_, fun _ => rfl⟩
      rintro ⟨x, hx⟩
      rw [(h1 x).2 hx] at ht
      cases ht

example : Numeric " 12 ".toList (.fin 12) := (convert_whole _ _).1 (by decide +kernel)

/-- The tokens of `MID$("HELLO",INT(A)+2,LEN(STR$(A)))`. -/
def Demo.callTokens : List Lexeme :=
  [.name "Mid$".toList, opTok '(', .str "HELLO".toList, opTok ',', .name "INT".toList, opTok '(', .name ['A'], opTok ')', opTok '+', .num (.fin 2), opTok ',',
    .name "LEN".toList, opTok '(', .name "STR$".toList, opTok '(', .name ['A'], opTok ')', opTok ')', opTok ')']

/-- What they mean. -/
def Demo.callTree : Expr .str :=
  .mid (.str "HELLO".toList) (.arith .add (.numFn .int (.numVar ['A'])) (.num (.fin 2))) (.strFn .len (.textFn .str (.numVar ['A'])))

theorem Demo.callPhrase : Phrase .or Demo.callTokens Demo.callTree := by
  have up : ∀ {l : List Lexeme} {t : Ty} {e : Expr t}, Phrase .primary l e → Phrase .mult l e := fun h => .neg (.power (.primary h))
  have top : ∀ {l : List Lexeme} {t : Ty} {e : Expr t}, Phrase .add l e → Phrase .or l e := fun h => .conj (.not (.rel (.sum h)))
  have a : Phrase .or [.name ['A']] (.numVar ['A']) := top (.mult (up (.numVar rfl (by decide))))
  refine top (.mult (up (.mid (w := "Mid$".toList) (l := [.str "HELLO".toList]) (l' := [.name "INT".toList, opTok '(', .name ['A'], opTok ')', opTok '+', .num (.fin 2)])
    (l'' := [.name "LEN".toList, opTok '(', .name "STR$".toList, opTok '(', .name ['A'], opTok ')', opTok ')']) (by decide +kernel) (top (.mult (up .str))) ?_ ?_)))
  · exact top (.add (l := [.name "INT".toList, opTok '(', .name ['A'], opTok ')']) (l' := [.num (.fin 2)])
      (.mult (up (.numFn (l := [.name ['A']]) (f := .int) rfl a))) (up .num))
  · exact top (.mult (up (.strFn (l := [.name "STR$".toList, opTok '(', .name ['A'], opTok ')']) (f := .len) rfl
      (top (.mult (up (.textFn (l := [.name ['A']]) (f := .str) rfl a)))))))

example : ∃ n0, ∀ n, n0 ≤ n → ∃ r vm'', runImmediate Demo.env (fun _ => false) n (newVm false false false {}) "PRINT Mid$(\"HELLO\",INT(A)+2,LEN(STR$(A)))".toList = .ok (some r, vm'') ∧
    r.interrupted = false ∧ Shows (Demo.callTree.eval Demo.env (storeOf (newVm false false false {}))) (newVm false false false {}) r vm'' :=
  C39_print_partial (may := fun _ _ => False) (.start false false false {}) rfl
    (Demo.split_spec 21 (l := .op (.kw .PRINT) :: Demo.callTokens ++ [opTok '\n']) (r := []) (by decide +kernel)) Demo.callPhrase
    (by intro w hw; cases hw; decide +kernel) (by intro w hw; cases hw) (by decide) (by decide) (by decide +kernel) rfl Demo.env (steady_known _ rfl _) (fun _ => rfl)

set_option maxRecDepth 100000 in
example : Demo.shows "PRINT Mid$(\"HELLO\",INT(A)+2,LEN(STR$(A)))\n" = .ok "> E\n".toList := by decide +kernel

/-- The tokens of `A(B+2)+RND`. -/
def Demo.elemTokens : List Lexeme :=
  [.name ['A'], opTok '(', .name ['B'], opTok '+', .num (.fin 2), opTok ')', opTok '+', .name "RND".toList]

/-- What they mean. -/
def Demo.elemTree : Expr .num := .arith .add (.elem .num ['A'] (.arith .add (.numVar ['B']) (.num (.fin 2)))) .rnd

theorem Demo.elemPhrase : Phrase .or Demo.elemTokens Demo.elemTree := by
  have up : ∀ {l : List Lexeme} {t : Ty} {e : Expr t}, Phrase .primary l e → Phrase .mult l e := fun h => .neg (.power (.primary h))
  have top : ∀ {l : List Lexeme} {t : Ty} {e : Expr t}, Phrase .add l e → Phrase .or l e := fun h => .conj (.not (.rel (.sum h)))
  exact top (.add (l := [.name ['A'], opTok '(', .name ['B'], opTok '+', .num (.fin 2), opTok ')']) (l' := [.name "RND".toList])
    (.mult (up (.elem (w := ['A']) (l := [.name ['B'], opTok '+', .num (.fin 2)]) rfl
      (top (.add (l := [.name ['B']]) (l' := [.num (.fin 2)]) (.mult (up (.numVar rfl (by decide)))) (up .num)))))) (up (.rnd rfl)))

/-- The machine at the start. -/
def Demo.new : VM := newVm false false false {}

/-- What the names mean when the array has been made and a random number was drawn. -/
def Demo.elemStore : Store := { (storeOf Demo.new).setArr .num ['A'] (.made [10] fun _ => .fin 0) with rng := 1 }

theorem Demo.elemValue : Demo.elemTree.eval Demo.env (storeOf Demo.new) = .ok (drawn Demo.env 0) Demo.elemStore := by
  have hb : Dbl.add (numNamed Demo.new.st ['B']) (.fin 2) = .fin 2 := by decide +kernel
  have hx : subscripts [Dbl.fin 2] = .ok [2] := rfl
  have h1 : settle .num ['A'] [2] (storeOf Demo.new) = .ok () ((storeOf Demo.new).setArr .num ['A'] (.made [10] fun _ => .fin 0)) := by
    have h0 : (storeOf Demo.new).numArrs ['A'] = .missing := by
      have : Demo.new.st.psym.find? (fun s => (s.kind == .array || s.kind == .unknown) && decide (SameIgnoringCase s.name ['A'])) = none := by decide +kernel
      show numArrNamed Demo.new.st ['A'] = _
      rw [numArr_look]
      unfold look isArray
      rw [this]
    unfold settle
    rw [show (storeOf Demo.new).arr .num ['A'] = .missing from h0]
    rfl
  have h2 : fetch .num ['A'] [2] ((storeOf Demo.new).setArr .num ['A'] (.made [10] fun _ => .fin 0)) =
      .ok (.fin 0) ((storeOf Demo.new).setArr .num ['A'] (.made [10] fun _ => .fin 0)) := rfl
  have h3 : random Demo.env ((storeOf Demo.new).setArr .num ['A'] (.made [10] fun _ => .fin 0)) = .ok (drawn Demo.env 0) Demo.elemStore :=
    random_draws (.now (by decide +kernel))
  have h4 : Dbl.add (.fin 0) (drawn Demo.env 0) = drawn Demo.env 0 := by decide +kernel
  have h5 : (Expr.eval Demo.env (.arith .add (.numVar ['B']) (.num (.fin 2)))) (storeOf Demo.new) = .ok (.fin 2) (storeOf Demo.new) := by
    show Answer.ok (Dbl.add (numNamed Demo.new.st ['B']) (.fin 2)) _ = _
    rw [hb]
  have h6 : (Expr.eval Demo.env (.elem .num ['A'] (.arith .add (.numVar ['B']) (.num (.fin 2))))) (storeOf Demo.new) =
      .ok (.fin 0) ((storeOf Demo.new).setArr .num ['A'] (.made [10] fun _ => .fin 0)) := by
    rw [Expr.eval, Expr.evalBy, Ev.bind_apply, show Expr.evalBy Demo.env element (.arith .add (.numVar ['B']) (.num (.fin 2))) (storeOf Demo.new) = _ from h5]
    simp only [element, Ev.bind_apply, Ev.of, hx, h1, h2]
  rw [Demo.elemTree, Expr.eval, Expr.evalBy, Ev.bind_apply,
    show Expr.evalBy Demo.env element (.elem .num ['A'] (.arith .add (.numVar ['B']) (.num (.fin 2)))) (storeOf Demo.new) = _ from h6]
  simp only [Ev.bind_apply, Expr.evalBy, h3]
  show Answer.ok (Dbl.add (.fin 0) (drawn Demo.env 0)) Demo.elemStore = _
  rw [h4]

example : ∃ n0, ∀ n, n0 ≤ n → ∃ r vm'', runImmediate Demo.env (fun _ => false) n Demo.new "PRINT A(B+2)+RND".toList = .ok (some r, vm'') ∧
    r.interrupted = false ∧ r.error = none ∧ vm''.world.out = ' ' :: Dbl.fmtG (drawn Demo.env 0) ++ " \n".toList ∧ storeOf vm'' = Demo.elemStore := by
  have hp : ∀ s ∈ Demo.new.st.psym, s.kind ≠ .def_ := by decide +kernel
  have h := C39_print_partial (may := fun _ _ => False) (vm' := Demo.new) (line := "PRINT A(B+2)+RND".toList) (.start false false false {}) rfl
    (Demo.split_spec 21 (l := .op (.kw .PRINT) :: Demo.elemTokens ++ [opTok '\n']) (r := []) (by decide +kernel)) Demo.elemPhrase
    (by intro w hw; cases hw; decide +kernel) (fun _ _ s hs _ => hp s hs) (by decide) (by decide) (by decide +kernel) rfl Demo.env
    (by rw [Demo.elemValue]; exact fun h => by cases h) (brk := fun _ => false) (fun _ => rfl)
  refine h.imp fun n0 h n hn => ?_
  obtain ⟨r, u, h1, h2, h3⟩ := h n hn
  rw [Demo.elemValue] at h3
  exact ⟨r, u, h1, h2, h3.1, h3.2.1.trans (by decide +kernel), h3.2.2⟩

end LB
