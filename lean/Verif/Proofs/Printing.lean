import Verif.Proofs.Spelled
import Verif.Proofs.Stretch
/- A typed line that prints an expression. -/
namespace LB
open LB.Spec _root_.Spec

/-- Added names change nothing that expressions depend on. -/
theorem Added.look {n : Nat} {st st' : SymTab} (h : Added [] n st st') {β : Type} {p : SymKind → Bool} {g : Symbol → β} {d : β}
    (hp : p .unknown = true → p .array = true) (hp' : p .array = true → p .unknown = true) (hg : ∀ s : Symbol, g { s with kind := .array } = g s)
    (hd : ∀ s, Unused s → g s = d) : LB.look p g d st' = LB.look p g d st := by
  refine look_congr h.more (fun q s t hs ht => ?_) (fun q t hq ht hk => hd t (h.new q t ht hq).1)
  rcases h.old q s hs with h1 | ⟨hu, k, hk, h1, hn⟩
  · rw [h1] at ht; cases ht; exact ⟨rfl, rfl, fun _ => rfl⟩
  · obtain rfl : k = .array := hk.resolve_right fun h => by
      obtain ⟨_, h, _⟩ := hn.1 h
      cases h
    rw [h1] at ht; cases ht
    refine ⟨rfl, ?_, fun _ => hg s⟩
    rw [hu]
    cases h1 : p .array with
    | true => rw [hp' h1]
    | false => cases h2 : p .unknown with
      | false => rfl
      | true => rw [hp h2] at h1; cases h1

theorem Added.numNamed {n : Nat} {st st' : SymTab} (h : Added [] n st st') : numNamed st' = numNamed st := by
  rw [numNamed_look, numNamed_look]
  exact h.look (by decide) (by decide) (fun _ => rfl) (fun s hs => by simp [numView, hs.2.1])

theorem Added.strNamed {n : Nat} {st st' : SymTab} (h : Added [] n st st') : strNamed st' = strNamed st := by
  rw [strNamed_look, strNamed_look]
  exact h.look (by decide) (by decide) (fun _ => rfl) (fun s hs => by simp [strView, hs.2.1])

theorem Added.numArrs {n : Nat} {st st' : SymTab} (h : Added [] n st st') : numArrNamed st' = numArrNamed st := by
  rw [numArr_look, numArr_look]
  exact h.look (by decide) (by decide) (fun _ => rfl) (fun s hs => by simp [fieldView, arrView, hs.2.1, V.numField, hs.2.2.2.1])

theorem Added.strArrs {n : Nat} {st st' : SymTab} (h : Added [] n st st') : strArrNamed st' = strArrNamed st := by
  rw [strArr_look, strArr_look]
  exact h.look (by decide) (by decide) (fun _ => rfl) (fun s hs => by simp [fieldView, arrView, hs.2.1, V.strField, hs.2.2.2.2.1])

theorem Added.noFunctions {n : Nat} {st st' : SymTab} (h : Added [] n st st') {t : Ty} {e : Expr t} (hf : NoFunctions e st) : NoFunctions e st' := by
  intro w hw s hs hn
  obtain ⟨q, hq⟩ := List.mem_iff_getElem?.1 hs
  by_cases hl : st.psym.length ≤ q
  · intro h1
    obtain ⟨_, h2, _⟩ := (h.new q s hq hl).2.1 h1
    cases h2
  · have h0 : st.psym[q]? = some st.psym[q] := List.getElem?_eq_getElem (by omega)
    rcases h.old q _ h0 with h1 | ⟨_, k, hk, h1, hj⟩
    · rw [h1] at hq; cases hq; exact hf w hw _ (List.mem_of_getElem? h0) hn
    · rw [h1] at hq; cases hq
      intro h2
      obtain ⟨_, h2, _⟩ := hj.1 h2
      cases h2

/-- Names of unknown kind become those of arrays. -/
theorem unknown_added {fs : List CStr} (st : SymTab) (hn : ∀ s ∈ st.psym, s.kind = .unknown → ¬ Among fs s.name) : Added fs 0 st (symMakeUnknownArray st) := by
  refine ⟨by simp [symMakeUnknownArray], by simp [symMakeUnknownArray], fun q s hs => ?_, fun q s hs hq => ?_⟩
  · rw [unknownArray_get, hs]
    by_cases hk : s.kind = .unknown
    · exact .inr ⟨hk, .array, .inl rfl, by simp [hk], fun h => (by cases h), fun _ => hn s (List.mem_of_getElem? hs) hk⟩
    · exact .inl (by simp [hk])
  · rw [List.getElem?_eq_none (by simpa [symMakeUnknownArray] using hq)] at hs; cases hs

theorem unknown_known (st : SymTab) : ∀ s ∈ (symMakeUnknownArray st).psym, s.kind ≠ .unknown := by
  intro s hs
  simp only [symMakeUnknownArray, List.mem_map] at hs
  obtain ⟨a, _, rfl⟩ := hs
  split
  · exact fun h => by cases h
  · assumption

theorem unknown_grows (st : SymTab) : Grows st (symMakeUnknownArray st) := by
  intro q s hs
  by_cases hk : s.kind = .unknown
  · exact ⟨{ s with kind := .array }, by rw [unknownArray_get, hs]; simp [hk], rfl, rfl, rfl, .inr ⟨hk, .inl rfl⟩⟩
  · exact ⟨s, by rw [unknownArray_get, hs]; simp [hk], rfl, rfl, rfl, .inl rfl⟩

/-- How an expression can start. -/
theorem phrase_first {v : Level} {l : List Lexeme} {t : Ty} {e : Expr t} (h : Phrase v l e) :
    ∃ a l', l = a :: l' ∧ ((∃ x, a = .num x) ∨ (∃ s, a = .str s) ∨ (∃ w, a = .name w) ∨ a = opTok '(' ∨ a = opTok '-' ∨ a = .op (.kw .NOT)) := by
  induction h with
  | num | str | numVar | strVar | paren | numFn | strFn | textFn | endFn | mid | elem | elem2 | rnd | rndEmpty | rndOf | time | timeEmpty | timeOf => exact ⟨_, _, rfl, by simp⟩
  | primary _ ih | power _ ih | neg _ ih | mult _ ih | sum _ ih | rel _ ih | not _ ih | conj _ ih => exact ih
  | pow _ _ ih _ | mul _ _ ih _ | div _ _ ih _ | add _ _ ih _ | sub _ _ ih _ | concat _ _ ih _ | cmp _ _ ih _ | cmpStr _ _ ih _
  | and _ _ ih _ | or _ _ ih _ =>
    obtain ⟨a, l', h1, h2⟩ := ih
    exact ⟨a, _, by rw [h1]; rfl, h2⟩
  | @minus k _ _ _ ih | @nots k _ _ _ ih =>
    obtain ⟨a, l', h1, h2⟩ := ih
    cases k with
    | zero => exact ⟨a, l', h1, h2⟩
    | succ k => exact ⟨_, _, by rw [List.replicate_succ]; rfl, by simp⟩

/-- The instruction that prints a value. -/
def printInst : Ty → Inst
  | .str => .printStr
  | _ => .printNum

namespace P

theorem matchTok_ok {p : Parser} {k t : Tok} {lex' : Lex} (ht : p.lex.token = k) (h : lexNext p.lex = .ok (t, lex')) :
    matchTok k p = .ok () { p with lex := lex' } := by
  unfold matchTok
  rw [token_bind, if_neg (by simpa using ht)]
  rw [bind_ok (next_ok h)]
  rfl

theorem fuel_ok {p : Parser} {t : CStr} (h : p.lex.text = some t) : fuel p = .ok (t.length + 2) p := by
  unfold fuel
  rw [h]

theorem eos_apply (p : Parser) :
    eos p = .ok (p.lex.token == .eof || p.lex.token == .ch '\n' || p.lex.token == .ch ':' || p.lex.token == .kw .ELSE) p := rfl

theorem printLoop_end {n : Nat} {b : Bool} {p : Parser} (h : p.lex.token = .ch '\n') : printLoop (n + 1) b p = .ok b p := by
  unfold printLoop
  rw [bind_ok (eos_apply p)]
  simp [h]

/-- One expression of a PRINT statement. -/
theorem printLoop_item {n : Nat} {b : Bool} {p : Parser} {l : List Lexeme} {t : Ty} {e : Expr t} {lex' : Lex} (hw : WellNamed p.st) (h : Phrase .or l e)
    {text : CStr} (ht : p.lex.text = some text) (hp : p.lex.pos ≤ text.length) (hs : Scans p.lex l lex') (hk : ¬ Continues lex'.token)
    (hn : ∀ w, l.head? = some (.name w) → ¬ SameIgnoringCase w "SPC".toList ∧ ¬ SameIgnoringCase w "TAB".toList) :
    ∃ p', Put p e lex' p' ∧ printLoop (n + 1) b p = printLoop n false { p' with bcode := emitInst p'.bcode (printInst t) } := by
  obtain ⟨p', h1, h2⟩ := expression_put hw h ht hp hs hk
  refine ⟨p', h2, ?_⟩
  obtain ⟨a, l', rfl, ha⟩ := phrase_first h
  have hc : Spec.Current p.lex a := by cases hs; assumption
  have htok : p.lex.token ≠ .eof ∧ p.lex.token ≠ .ch '\n' ∧ p.lex.token ≠ .ch ':' ∧ p.lex.token ≠ .kw .ELSE ∧ p.lex.token ≠ .ch ';' ∧ p.lex.token ≠ .ch ',' := by
    rcases ha with ⟨x, rfl⟩ | ⟨x, rfl⟩ | ⟨x, rfl⟩ | rfl | rfl | rfl
    · rw [hc.1]; decide
    · rw [hc.1]; decide
    · rw [hc.1]; decide
    all_goals (have : p.lex.token = _ := hc; rw [this]; decide)
  have hname : isName p.lex.token p.lex.word "SPC" = false ∧ isName p.lex.token p.lex.word "TAB" = false := by
    by_cases hid : p.lex.token = .id
    · have : ∃ w, a = .name w ∧ p.lex.word = w := by
        rcases ha with ⟨x, rfl⟩ | ⟨x, rfl⟩ | ⟨x, rfl⟩ | rfl | rfl | rfl
        · rw [hc.1] at hid; cases hid
        · rw [hc.1] at hid; cases hid
        · exact ⟨x, rfl, hc.2⟩
        all_goals (have : p.lex.token = _ := hc; rw [this] at hid; cases hid)
      obtain ⟨w, rfl, hw'⟩ := this
      have := hn w rfl
      simp only [isName, hw', hid]
      refine ⟨?_, ?_⟩
      · rw [beq_eq_false_iff_ne.2 (fun h => this.1 ((strcasecmp_eq_zero_iff _ _).1 h)), Bool.and_false]
      · rw [beq_eq_false_iff_ne.2 (fun h => this.2 ((strcasecmp_eq_zero_iff _ _).1 h)), Bool.and_false]
    · simp [isName, hid]
  conv => lhs; unfold printLoop
  rw [bind_ok (eos_apply p)]
  simp only [beq_eq_false_iff_ne.2 htok.1, beq_eq_false_iff_ne.2 htok.2.1, beq_eq_false_iff_ne.2 htok.2.2.1, beq_eq_false_iff_ne.2 htok.2.2.2.1, Bool.or_self, Bool.false_eq_true, if_false]
  rw [token_bind]
  show (if isName p.lex.token p.lex.word "SPC" = true then _ else _ : P Bool) p = _
  simp only [hname.1, hname.2, Bool.false_eq_true, if_false, if_neg htok.2.2.2.2.1, if_neg htok.2.2.2.2.2]
  rw [bind_ok h1]
  cases t with
  | num => rfl
  | str => rfl
  | err => exact absurd rfl h.type_ne

/-- A line with one PRINT statement of one expression is compiled to the code of the expression. -/
theorem parseLine_print {p : Parser} {line : CStr} {l : List Lexeme} {t : Ty} {e : Expr t} (hw : WellNamed p.st) (hpre : p.lex.prefixes = false)
    (hl : Spells line (.op (.kw .PRINT) :: l ++ [opTok '\n']) []) (h : Phrase .or l e)
    (hn : ∀ w, l.head? = some (.name w) → ¬ SameIgnoringCase w "SPC".toList ∧ ¬ SameIgnoringCase w "TAB".toList) :
    ∃ c p', parseLine 0 0 line p = .ok () p' ∧ p'.bcode = { p.bcode with inst := p.bcode.inst ++ (.sourceLine 0 :: c ++ [printInst t, .printLn]) } ∧
      Postfix p'.st e c ∧ WellNamed p'.st ∧ Added [] e.vars p.st p'.st := by
  obtain ⟨lex', h1, h2, _, h3⟩ := spells_lexes hl (a := opTok '\n') (lex := { p.lex with lineno := 0, text := some line, pos := 0 }) (fun _ h => by cases h) hpre ⟨line, rfl, Nat.zero_le _, rfl⟩
  obtain ⟨t1, lex1, h4, h5, h6⟩ := h1.scans
  have h4 : lexNext { p.lex with lineno := 0, text := some line, pos := 0 } = .ok (t1, lex1) := h4
  have h6 : lex'.token = .ch '\n' := h6
  have hT1 := lexNext_tame (pre := p.lex.prefixes) (p := 0) (t := line) (lex := { p.lex with lineno := 0, text := some line, pos := 0 }) ⟨rfl, Nat.zero_le _, Nat.le_refl _, rfl⟩
  rw [h4] at hT1
  cases h5 with
  | @more _ _ _ t2 lex2 _ h7 h8 h9 =>
    have h7 : lex1.token = .kw .PRINT := h7
    have hT2 := lexNext_tame (pre := lex1.prefixes) (p := lex1.pos) (t := line) (lex := lex1) ⟨hT1.1.text, hT1.1.le, Nat.le_refl _, rfl⟩
    rw [h8] at hT2
    let p1 : Parser := { p with lex := lex1, bcode := emitInst p.bcode (.sourceLine 0), ifThen := 0 }
    obtain ⟨p3, hput, hloop⟩ := printLoop_item (n := line.length + 1) (b := false) (p := { p1 with lex := lex2 }) hw h hT2.1.text hT2.1.le h9
      (by rw [h6]; decide) hn
    obtain ⟨c, hc1, hc2⟩ := hput.code
    have hpr : printStatement p1 = .ok () { p3 with bcode := emitInst (emitInst p3.bcode (printInst t)) .printLn } := by
      unfold printStatement
      rw [token_bind, if_neg (by rw [show p1.lex.token = _ from h7]; decide)]
      refine (bind_ok (matchTok_ok (p := p1) h7 h8)).trans ?_
      refine (bind_ok (fuel_ok (p := { p1 with lex := lex2 }) hT2.1.text)).trans ?_
      refine (bind_ok (hloop.trans (printLoop_end (n := line.length) (by rw [show p3.lex = _ from hput.lex]; exact h6)))).trans ?_
      rfl
    have h6' : p3.lex.token = .ch '\n' := by rw [show p3.lex = _ from hput.lex]; exact h6
    have hst : statement p1 = .ok false { p3 with bcode := emitInst (emitInst p3.bcode (printInst t)) .printLn } := by
      unfold statement
      rw [token_bind, show p1.lex.token = _ from h7]
      have : statementBody (.kw .PRINT) p1 = .ok false { p3 with bcode := emitInst (emitInst p3.bcode (printInst t)) .printLn } := by
        show plain printStatement p1 = _
        unfold plain
        refine (bind_ok hpr).trans ?_
        rfl
      rw [bind_ok this, token_bind, if_neg (by rw [show ({ p3 with bcode := emitInst (emitInst p3.bcode (printInst t)) .printLn } : Parser).lex.token = _ from h6']; decide)]
      rfl
    have hcs : completeStatement (line.length + 2) p1 = .ok () { p3 with bcode := emitInst (emitInst p3.bcode (printInst t)) .printLn } := by
      unfold completeStatement
      refine (bind_ok hst).trans ?_
      rfl
    have hcl : colonLoop (line.length + 2) (line.length + 2) { p3 with bcode := emitInst (emitInst p3.bcode (printInst t)) .printLn } =
        .ok () { p3 with bcode := emitInst (emitInst p3.bcode (printInst t)) .printLn } := by
      unfold colonLoop
      rw [token_bind, if_neg (by rw [show ({ p3 with bcode := emitInst (emitInst p3.bcode (printInst t)) .printLn } : Parser).lex.token = _ from h6']; decide)]
      rfl
    have hend := next_eol (lex := p3.lex) (bs := []) (by rw [show p3.lex = _ from hput.lex]; exact h2) (by simp)
    refine ⟨c, { p3 with bcode := emitInst (emitInst p3.bcode (printInst t)) .printLn, lex := { adv p3.lex 0 with tokenPos := p3.lex.pos, token := .ch '\n' } }, ?_, ?_, hc2, hput.names, hput.added⟩
    · unfold parseLine
      refine (bind_ok (show startLine 0 line p = .ok () { p with lex := lex1 } by simp only [startLine, lexLine, h4])).trans ?_
      refine (bind_ok (show emit (.sourceLine 0) { p with lex := lex1 } = .ok () { p with lex := lex1, bcode := emitInst p.bcode (.sourceLine 0) } from rfl)).trans ?_
      refine (bind_ok (show setIfThen 0 { p with lex := lex1, bcode := emitInst p.bcode (.sourceLine 0) } = .ok () p1 from rfl)).trans ?_
      refine (bind_ok (fuel_ok (p := p1) hT1.1.text)).trans ?_
      refine (bind_ok hcs).trans ?_
      refine (bind_ok hcl).trans ?_
      exact matchTok_ok h6' hend
    · simp only [hc1, p1, emitInst, Inst.isData, Bool.or_false]
      cases t <;> simp [printInst]

end P

theorem print_source {st : SymTab} {line : CStr} {l : List Lexeme} {t : Ty} {e : Expr t} (hw : WellNamed st)
    (hl : Spells line (.op (.kw .PRINT) :: l ++ [opTok '\n']) []) (h : Phrase .or l e)
    (hn : ∀ w, l.head? = some (.name w) → ¬ SameIgnoringCase w "SPC".toList ∧ ¬ SameIgnoringCase w "TAB".toList) :
    ∃ c st', parseSource (wrapSourceText line) st false = .ok (some ⟨.sourceLine 0 :: c ++ [printInst t, .printLn], false⟩, symMakeUnknownArray st') ∧
      Postfix st' e c ∧ WellNamed st' ∧ Added [] e.vars st st' := by
  obtain ⟨c, p', h1, h2, h3, h4, h5⟩ := P.parseLine_print (p := { lex := newLex false, bcode := newBcode, st := st, ifThen := 0 }) hw rfl hl h hn
  refine ⟨c, p'.st, ?_, h3, h4, h5⟩
  unfold parseSource
  have : P.parseLines (wrapSourceText line).lines 0 { lex := newLex false, bcode := newBcode, st := st, ifThen := 0 } = .ok () p' := by
    simp only [wrapSourceText, P.parseLines]
    rw [P.bind_ok h1]
    rfl
  rw [this]
  simp only [h2]
  rfl

theorem Spec.Postfix.unknown {st : SymTab} {t : Ty} {e : Expr t} {c : List Inst} (h : Postfix st e c) : Postfix (symMakeUnknownArray st) e c :=
  h.grow (unknown_grows st)

/-- Instructions of a typed line. -/
theorem instAt_immediate {vm : VM} {bc : Bcode} {k : Nat} (h1 : vm.cs.code = some .immediate) (h2 : vm.immediate.bcode = some bc) :
    instAt vm k = bc.inst[k]? := by
  simp [instAt, h1, V.codeOf, h2]

theorem at_instAt {vm : VM} {i : Inst} (h : instAt vm vm.cs.pc = some i) : At vm i := by
  simp only [instAt] at h
  cases hc : vm.cs.code with
  | none => simp [hc] at h
  | some r =>
    cases hb : (V.codeOf vm r).bcode with
    | none => simp [hc, hb] at h
    | some b => exact ⟨r, b, hc, hb, by simpa [hc, hb] using h⟩

/-- The value is printed. -/
theorem print_value {env : Env} {vm u : VM} {t : Ty} {x : Meaning t} (ht : t ≠ .err) (hat : At vm (printInst t)) (h : (vm.stack, vm.strstack) = pushed x u) :
    ∃ vm1, V.execute env vm = .ok () vm1 ∧
      vm1 = { vm with stack := vm1.stack, strstack := vm1.strstack, col := vm1.col, cs := following vm.cs, world := { vm.world with out := vm.world.out ++ written x } } := by
  rw [V.execute_at env hat]
  cases t with
  | num =>
    obtain ⟨h1, h2⟩ := pushed_num h
    simp only [printInst, V.exec, V.brk_apply, V.printNum, V.outCol, V.out, V.bind_apply, V.pop, h1, V.get_apply, V.modify_apply]
    exact ⟨_, rfl, rfl⟩
  | str =>
    obtain ⟨h1, h2⟩ := pushed_str h
    simp only [printInst, V.exec, V.brk_apply, V.printStr, V.outCol, V.out, V.bind_apply, V.popStr, h2, V.get_apply, V.modify_apply]
    exact ⟨_, rfl, rfl⟩
  | err => exact absurd rfl ht

theorem print_newline {env : Env} {vm : VM} (hat : At vm .printLn) :
    ∃ vm1, V.execute env vm = .ok () vm1 ∧ vm1 = { vm with col := vm1.col, cs := following vm.cs, world := { vm.world with out := vm.world.out ++ ['\n'] } } := by
  rw [V.execute_at env hat]
  simp only [V.exec, V.brk_apply, V.outCol, V.out, V.bind_apply, V.modify_apply]
  exact ⟨_, rfl, rfl⟩

theorem over_placed {base w : VM} {k : Nat} (h : OnlyReads base w) :
    V.over (placed base k) w = { w with cs := { base.cs with pc := k } } := by
  rw [h.rest]
  simp [V.over, placed]

theorem vmLoop_err {env : Env} {brk : Nat → Bool} (hb : ∀ k, brk k = false) {vm vm' : VM} {e : RunError} {j k : Nat} (hs : vm.stopped = false)
    (hx : V.execute env vm = .err e vm') : vmLoop env brk (j + 1) k vm = .ok (⟨some e, false⟩, vm') := by
  obtain ⟨b, hc, hpc⟩ : ∃ b, V.curBcode vm = .ok b vm ∧ vm.cs.pc < b.used := by
    simp only [V.execute, V.bind_apply] at hx
    cases hc : V.curBcode vm with
    | ok b vm1 =>
      have he : vm1 = vm := by
        have := V.Keeps.curBcode (I := fun u => u = vm) vm rfl
        rw [hc] at this
        exact this
      rw [he] at hc
      refine ⟨b, congrArg (Res.ok b) he, ?_⟩
      simp only [hc, V.get_apply] at hx
      cases hi : b.inst[vm.cs.pc]? with
      | none => simp [hi, V.halt] at hx
      | some i => exact (List.getElem?_eq_some_iff.1 hi).1
    | err =>
      simp only [V.curBcode] at hc
      split at hc
      · cases hc
      · split at hc <;> cases hc
    | halt => simp [hc] at hx
  have hu : curUsed vm = .ok b.used := by simp only [curUsed, hc]
  conv => lhs; unfold vmLoop
  simp only [hu, hpc, hs, hb, hx]
  simp

/-- The loop of the machine over a typed line that prints an expression. -/
theorem print_loop {env : Env} {brk : Nat → Bool} (hbrk : ∀ k, brk k = false) {vm : VM} {t : Ty} {e : Expr t} {c : List Inst} {b : Bool}
    (hw : WellNamed vm.st) (hsize : vm.st.psym.length ≤ 65536) (hu : ∀ s ∈ vm.st.psym, s.kind ≠ .unknown) (hf : NoFunctions e vm.st) (ht : t ≠ .err)
    (hp : Postfix vm.st e c) (hroom : vm.stack.length + e.nums ≤ maxNumStack)
    (hroom' : vm.strstack.length + e.strs ≤ maxStrStack) (hcs : vm.cs = { code := some .immediate, sourceLine := 0, pc := 0 })
    (hcode : vm.immediate.bcode = some ⟨.sourceLine 0 :: c ++ [printInst t, .printLn], b⟩) (htr : vm.traceBasic = false) (hstop : vm.stopped = false)
    (hk : e.eval env (storeOf vm) ≠ .unknown) :
    ∃ n0, ∀ n, n0 ≤ n → ∃ r vm', vmLoop env brk n 0 vm = .ok (r, vm') ∧ r.interrupted = false ∧ vm'.stopped = false ∧ vm'.cs.code = some .immediate ∧
      Shows (e.eval env (storeOf vm)) vm r vm' := by
  have hinst : ∀ k, instAt vm k = (Inst.sourceLine 0 :: c ++ [printInst t, .printLn])[k]? := fun k =>
    instAt_immediate (by rw [hcs]) hcode
  let base : VM := { vm with cs := { code := some .immediate, sourceLine := 0, pc := 1 } }
  have hbi : ∀ k, instAt base k = (Inst.sourceLine 0 :: c ++ [printInst t, .printLn])[k]? := fun k =>
    instAt_immediate (vm := base) rfl hcode
  have h1 : V.execute env vm = .ok () base := by
    rw [V.execute_at env (at_instAt (i := .sourceLine 0) (by rw [hcs, hinst]; rfl))]
    simp only [V.exec, V.brk_apply, V.sourceLineInst, V.bind_apply, V.modify_apply, V.get_apply, htr]
    simp [V.when_, following, hcs, base, htr]
  have hy := yields_postfix (env := env) (C := NoCalls) (get := element) (m := 0) (k := 0) (base := base) hw hsize hu hp (fun w hw' => handles_array (base := base) hw (hf w hw')) (vm := base)
    (OnlyReads.refl base) hroom hroom'
  change Yields env NoCalls base (e.eval env) c base at hy
  have hb0 : V.over (placed base 1) base = base := over_placed (OnlyReads.refl base)
  have hci : ∀ j i, c[j]? = some i → instAt base (1 + j) = some i := by
    intro j i hj
    rw [hbi, show 1 + j = j + 1 by omega]
    simp only [List.cons_append, List.getElem?_cons_succ]
    rw [List.getElem?_append_left (List.getElem?_eq_some_iff.1 hj).1]
    exact hj
  have hcomp := postfix_computing hp
  have hcall := postfix_noCall hw hsize hp hf
  have hgo : Travels env vm 1 base := .one hstop h1
  unfold Yields at hy
  cases hv : e.eval env (storeOf vm) with
  | unknown => exact absurd hv hk
  | error er s =>
    rw [show e.eval env (storeOf base) = .error er s from hv] at hy
    obtain ⟨w, hw1, hw2, hw3⟩ := hy
    obtain ⟨n, m, j, k1, k2, k3⟩ := (stretch (base := base) hstop hw1.plain hcomp hcall (k := 1) (OnlyReads.refl base) hci).2 er w rfl
    rw [hb0] at k1
    refine ⟨1 + (n + 1), fun N hN => ?_⟩
    obtain ⟨d, rfl⟩ : ∃ d, N = 1 + (n + (d + 1)) := ⟨N - (1 + (n + 1)), by omega⟩
    refine ⟨⟨some er, false⟩, V.over (placed base j) w, ?_, rfl, ?_, rfl, rfl, ?_, ?_⟩
    · rw [hgo.loop (fun _ _ => hbrk _), k1.loop (fun _ _ => hbrk _)]
      exact vmLoop_err hbrk k2 k3
    · rw [show w = _ from hw2]; exact hstop
    · rw [show w = _ from hw2]; rfl
    · exact hw3
  | ok x s =>
    rw [show e.eval env (storeOf base) = .ok x s from hv] at hy
    obtain ⟨w, hw1, hw2, hw4, hw3⟩ := hy
    obtain ⟨n, k2⟩ := (stretch (base := base) hstop hw1.plain hcomp hcall (k := 1) (OnlyReads.refl base) hci).1 w rfl
    rw [hb0, over_placed hw2] at k2
    have hwi : w.immediate = vm.immediate := by rw [hw2.rest]
    have hwo : w.world.out = vm.world.out := by rw [hw2.rest]
    have hws : w.stopped = false := by rw [hw2.rest]; exact hstop
    obtain ⟨m1, p1, p2⟩ := print_value (env := env) (vm := { w with cs := { base.cs with pc := 1 + c.length } }) (u := base) (x := x) ht
      (at_instAt (by
        rw [instAt_immediate (bc := ⟨.sourceLine 0 :: c ++ [printInst t, .printLn], b⟩) rfl (by rw [← hcode]; exact congrArg Code.bcode hwi)]
        show (Inst.sourceLine 0 :: c ++ [printInst t, .printLn])[1 + c.length]? = _
        rw [show 1 + c.length = c.length + 1 by omega]
        simp)) hw3
    have hm1 : m1.immediate = vm.immediate := by rw [p2]; exact hwi
    have hm1c : m1.cs = { code := some .immediate, sourceLine := 0, pc := 1 + c.length + 1 } := by rw [p2]; rfl
    obtain ⟨m2, q1, q2⟩ := print_newline (env := env) (vm := m1) (at_instAt (by
        rw [instAt_immediate (bc := ⟨.sourceLine 0 :: c ++ [printInst t, .printLn], b⟩) (by rw [hm1c]) (by rw [← hcode]; exact congrArg Code.bcode hm1), hm1c]
        show (Inst.sourceLine 0 :: c ++ [printInst t, .printLn])[1 + c.length + 1]? = _
        rw [show 1 + c.length + 1 = c.length + 1 + 1 by omega]
        simp))
    have hm2 : m2.immediate = vm.immediate := by rw [q2]; exact hm1
    have hm2c : m2.cs = { code := some .immediate, sourceLine := 0, pc := 1 + c.length + 2 } := by rw [q2]; simp only [following, hm1c]
    have hm1s : m1.stopped = false := by rw [p2]; exact hws
    have hm2s : m2.stopped = false := by rw [q2]; exact hm1s
    have k3 : Travels env { w with cs := { base.cs with pc := 1 + c.length } } 2 m2 := .step hws p1 (.one hm1s q1)
    refine ⟨1 + (n + (2 + 1)), fun N hN => ?_⟩
    obtain ⟨d, rfl⟩ : ∃ d, N = 1 + (n + (2 + (d + 1))) := ⟨N - (1 + (n + (2 + 1))), by omega⟩
    refine ⟨⟨none, false⟩, m2, ?_, rfl, hm2s, by rw [hm2c], rfl, ?_, ?_⟩
    · rw [hgo.loop (fun _ _ => hbrk _), k2.loop (fun _ _ => hbrk _), k3.loop (fun _ _ => hbrk _)]
      have hu : curUsed m2 = .ok (c.length + 3) := by
        simp [curUsed, V.curBcode, hm2c, V.codeOf, hm2, hcode, Bcode.used]
      conv => lhs; unfold vmLoop
      simp [hu, hm2c, hbrk]
      omega
    · rw [q2, p2]
      simp [hwo]
    · rw [q2, p2]
      exact hw4

end LB
