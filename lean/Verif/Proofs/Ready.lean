import Verif.Proofs.Steps
import Verif.Proofs.Index
/- A stored program is compiled and started. -/
namespace LB
open LB.Spec _root_.Spec

/- ### The code and the lines -/

theorem lines_at {st : SymTab} {i : Nat} {prog : Src.Program} {code : List Inst} (h : LinesCode st i prog code) : ∀ {pc l : Nat}, code[pc]? = some (.sourceLine l) →
    i ≤ l ∧ l < i + prog.length ∧ LinesCode st l (prog.drop (l - i)) (code.drop pc) := by
  induction h with
  | nil => intro pc l hp; simp at hp
  | @cons i n ss prog c d hc hl ih =>
    intro pc l hp
    cases pc with
    | zero => cases hp; refine ⟨Nat.le_refl _, by simp, ?_⟩; rw [Nat.sub_self]; exact .cons hc hl
    | succ pc =>
      rw [List.cons_append, List.getElem?_cons_succ] at hp
      by_cases hlt : pc < c.length
      · rw [List.getElem?_append_left hlt] at hp
        exact absurd (stmts_no hc _ (List.mem_of_getElem? hp)) (by simp [Inst.isSourceLine])
      · rw [List.getElem?_append_right (by omega)] at hp
        obtain ⟨h1, h2, h3⟩ := ih hp
        refine ⟨by omega, by simp only [List.length_cons]; omega, ?_⟩
        rw [show l - i = (l - (i + 1)) + 1 by omega, List.drop_succ_cons, List.cons_append, List.drop_succ_cons, List.drop_append, show c.drop pc = [] from List.drop_eq_nil_of_le (by omega), List.nil_append]
        exact h3

theorem lines_have {st : SymTab} {i : Nat} {prog : Src.Program} {code : List Inst} (h : LinesCode st i prog code) : ∀ {l : Nat}, l < prog.length →
    ∃ pc : Nat, code[pc]? = some (Inst.sourceLine (i + l)) := by
  induction h with
  | nil => intro l hl; simp at hl
  | @cons i n ss prog c d hc hl ih =>
    intro l hlt
    cases l with
    | zero => exact ⟨0, rfl⟩
    | succ l =>
      obtain ⟨pc, hp⟩ := ih (l := l) (by simpa using hlt)
      refine ⟨(c.length + pc) + 1, ?_⟩
      rw [List.cons_append, List.getElem?_cons_succ, List.getElem?_append_right (by omega), Nat.add_sub_cancel_left, hp, Nat.add_assoc, Nat.add_comm 1]

theorem program_nums {any : Bool} {ls : List SrcLine} {prog : Src.Program} (h : Src.LinesAs any ls prog) : prog.map (·.1) = ls.map (·.num) := by
  induction h with
  | nil => rfl
  | cons _ _ ih => simp [ih]

/- ### ELSE -/

theorem hasElse_none {ss : List Src.Stmt} (h : ∀ e, Src.Stmt.ifElse e ∉ ss) : HasElse ss := fun _ e hj => absurd (List.mem_of_getElem? hj) (h e)

theorem hasElse_append {a b : List Src.Stmt} (ha : ∀ e, Src.Stmt.ifElse e ∉ a) (hb : HasElse b) : HasElse (a ++ b) := by
  intro j e hj
  by_cases hlt : j < a.length
  · rw [List.getElem?_append_left hlt] at hj
    exact absurd (List.mem_of_getElem? hj) (ha e)
  · rw [List.getElem?_append_right (by omega)] at hj
    obtain ⟨s, h1, h2⟩ := hb _ e hj
    refine ⟨s, ?_, h2⟩
    rw [List.drop_append, show j + 1 - a.length = j - a.length + 1 by omega]
    exact List.mem_append_right _ h1

theorem hasElse_cons {s : Src.Stmt} {b : List Src.Stmt} (ha : ∀ e, Src.Stmt.ifElse e = s → ∃ x ∈ b, x.isElse = true) (hb : HasElse b) : HasElse (s :: b) := by
  intro j e hj
  cases j with
  | zero => cases hj; exact ha e rfl
  | succ j => exact hb j e (by simpa using hj)

theorem simple_noElse {l : List Lexeme} {ss : List Src.Stmt} (h : Src.Simple l ss) : ∀ e, Src.Stmt.ifElse e ∉ ss := by
  intro e he
  cases h with
  | letKw h | assign h => cases h <;> simp at he
  | next h =>
    induction h with
    | one => simp at he
    | more _ _ _ ih =>
      rcases List.mem_cons.1 he with h | h
      · cases h
      · exact ih h
  | read h =>
    induction h with
    | one h => cases h <;> simp at he
    | more h _ ih =>
      rcases List.mem_cons.1 he with h' | h'
      · cases h <;> cases h'
      · exact ih h'
  | dim h =>
    induction h with
    | one => simp at he
    | more _ _ ih =>
      rcases List.mem_cons.1 he with h | h
      · cases h
      · exact ih h
  | _ => simp at he

theorem sentence_noElse {l : List Lexeme} {ss : List Src.Stmt} (h : Src.Sentence l ss) : ∀ e, Src.Stmt.ifElse e ∉ ss := by
  cases h with
  | simple h => exact simple_noElse h
  | _ => intro e he; simp at he

theorem block_noElse {l : List Lexeme} {ss : List Src.Stmt} (h : Src.Block l ss) : ∀ e, Src.Stmt.ifElse e ∉ ss := by
  induction h with
  | last h => exact simple_noElse h
  | colon h _ ih =>
    intro e he
    rcases List.mem_append.1 he with he | he
    · exact simple_noElse h e he
    · exact ih e he

theorem clauses_hasElse {l : List Lexeme} {ss : List Src.Stmt} (h : Src.Clauses l ss) : HasElse ss := by
  induction h with
  | last h => exact hasElse_none (sentence_noElse h)
  | rem => exact hasElse_none (by simp)
  | colon h _ ih => exact hasElse_append (sentence_noElse h) ih
  | ifThen _ _ ih => exact hasElse_cons (fun e he => by cases he) ih
  | ifElse _ h _ ih =>
    refine hasElse_cons (fun e _ => ⟨.else_, by simp, rfl⟩) (hasElse_append (block_noElse h) (hasElse_cons (fun e he => by cases he) ih))

theorem lines_hasElse {any : Bool} {ls : List SrcLine} {prog : Src.Program} (h : Src.LinesAs any ls prog) : ∀ l ∈ prog, HasElse l.2 := by
  induction h with
  | nil => intro l hl; cases hl
  | cons h _ ih =>
    intro l hl
    rcases List.mem_cons.1 hl with rfl | hl
    · obtain ⟨_, _, _, h⟩ := h
      exact clauses_hasElse h
    · exact ih l hl

/- ### The image -/

theorem findIdx_ascending {prog : Src.Program} {l : Nat} {x : Nat × List Src.Stmt} (h : (prog.map (·.1)).Nodup) (hx : prog[l]? = some x) :
    prog.findIdx? (fun y => y.1 == x.1) = some l := by
  obtain ⟨hlt, he⟩ := List.getElem?_eq_some_iff.1 hx
  rw [List.findIdx?_eq_some_iff_getElem]
  refine ⟨hlt, by simp [he], fun j hj => ?_⟩
  have hne : (prog.map (·.1))[j]? ≠ (prog.map (·.1))[l]? := by
    rw [Ne, List.getElem?_inj (by simp; omega) h]
    omega
  simp only [List.getElem?_map, hx, Option.map_some] at hne
  rw [List.getElem?_eq_getElem (by omega)] at hne
  simpa using hne

/-- The table of line numbers tells where the code of the lines starts. -/
theorem lines_found {any : Bool} {src : Source} {prog : Src.Program} {st : SymTab} {code : List Inst} {idx : LineMap} {d : Bool} (hl : Src.LinesAs any src.lines prog)
    (hasc : Ascending (src.lines.map (·.num))) (hc : LinesCode st 0 prog code) (hi : bcodeIndex ⟨code, d⟩ src = .ok idx) :
    (∀ n i, prog.findIdx? (fun l => l.1 == n) = some i → ∃ pc, lookupLineMapping idx n = some pc ∧ LinesCode st i (prog.drop i) (code.drop pc)) ∧
    ∀ n, prog.findIdx? (fun l => l.1 == n) = none → lookupLineMapping idx n = none := by
  have hn := program_nums hl
  have hnd : (prog.map (·.1)).Nodup := by
    rw [hn]
    exact List.Pairwise.imp (fun h => Nat.ne_of_lt h) hasc
  have hnum : ∀ {l : Nat} {ln : SrcLine}, src.lines[l]? = some ln → ∃ ss, prog[l]? = some (ln.num, ss) := by
    intro l ln h
    have := congrArg (·[l]?) hn
    simp only [List.getElem?_map, h, Option.map_some, Option.map_eq_some_iff] at this
    obtain ⟨x, h1, h2⟩ := this
    exact ⟨x.2, by rw [h1, ← h2]⟩
  refine ⟨fun n i hf => ?_, fun n hf => ?_⟩
  · obtain ⟨hlt, he, _⟩ := List.findIdx?_eq_some_iff_getElem.1 hf
    have hlt : i < prog.length := hlt
    obtain ⟨s1, s2⟩ := bcodeIndex_spec hi n
    have hlen : prog.length = src.lines.length := by simpa using congrArg List.length hn
    cases hk : lookupLineMapping idx n with
    | none =>
      exfalso
      obtain ⟨pc, hp⟩ := lines_have hc hlt
      rw [Nat.zero_add] at hp
      have hln := List.getElem?_eq_getElem (l := src.lines) (i := i) (by omega)
      refine s2 hk pc i _ hp hln ?_
      obtain ⟨ss, hss⟩ := hnum hln
      have := (List.getElem?_eq_some_iff.1 hss).2
      rw [this] at he
      simpa using he
    | some pc =>
      obtain ⟨l, ln, h1, h2, h3⟩ := s1 pc hk
      obtain ⟨ss, hss⟩ := hnum h2
      have := findIdx_ascending hnd hss
      simp only [h3, hf, Option.some.injEq] at this
      subst this
      exact ⟨pc, rfl, by have := (lines_at hc h1).2.2; rwa [Nat.sub_zero] at this⟩
  · cases hk : lookupLineMapping idx n with
    | none => rfl
    | some pc =>
      exfalso
      obtain ⟨l, ln, h1, h2, h3⟩ := (bcodeIndex_spec hi n).1 pc hk
      obtain ⟨ss, hss⟩ := hnum h2
      have := findIdx_ascending hnd hss
      simp only [h3, hf] at this
      cases this

theorem image_ok {any : Bool} {src : Source} {prog : Src.Program} {st : SymTab} {code : List Inst} {idx : LineMap} {d : Bool} (out : CStr) (hl : Src.LinesAs any src.lines prog) (hfit : prog.Fits)
    (hasc : Ascending (src.lines.map (·.num))) (hc : LinesCode st 0 prog code) (hi : bcodeIndex ⟨code, d⟩ src = .ok idx) (hd : d = true ↔ prog.data ≠ []) :
    Image.Ok ⟨prog, code, st, idx, ⟨some src, some ⟨code, d⟩, some idx⟩, out⟩ := by
  obtain ⟨h1, h2⟩ := lines_found hl hasc hc hi
  exact ⟨hc, h1, h2, lines_hasElse hl, hfit, ⟨d, rfl, hd⟩, rfl⟩

/- ### RUN -/

theorem builtins_kind : ∀ s ∈ builtinSymbols, s.kind = .builtin := by decide

theorem builtins_tidy : ∀ s ∈ builtinSymbols, TidySym s := by
  intro s hs
  have hk := builtins_kind s hs
  simp only [builtinSymbols, List.mem_map] at hs
  obtain ⟨a, _, rfl⟩ := hs
  exact ⟨fun h => (by cases h), by simp, by simp, fun h => (by cases h)⟩

theorem fresh_kind (st : SymTab) : ∀ s ∈ (initBuiltins (clearSymbolTableNames st)).psym, s.kind = .builtin := by
  intro s hs
  rw [show (initBuiltins (clearSymbolTableNames st)).psym = builtinSymbols from initBuiltins_psym] at hs
  exact builtins_kind s hs

theorem fresh_apart (fs : List CStr) (st : SymTab) : Apart fs (initBuiltins (clearSymbolTableNames st)) := by
  intro s hs
  rw [fresh_kind st s hs]
  exact ⟨fun h => (by cases h), fun h => (by cases h)⟩

/-- After compiling a program the names have no values yet. -/
theorem compiled_unused {fs : List CStr} {n : Nat} {b st' : SymTab} (hb : ∀ s ∈ b.psym, s.kind = .builtin) (h : Added fs n b st') :
    ∀ s ∈ (symMakeUnknownArray st').psym, s.kind = .builtin ∨ Unused s := by
  intro s hs
  obtain ⟨q, hq⟩ := List.mem_iff_getElem?.1 hs
  rw [unknownArray_get, Option.map_eq_some_iff] at hq
  obtain ⟨a, ha, rfl⟩ := hq
  have hold : a.kind = .builtin ∨ Unused a := by
    by_cases hl : b.psym.length ≤ q
    · exact .inr (h.new q a ha hl).1
    · have h1 := List.getElem?_eq_getElem (l := b.psym) (i := q) (by omega)
      have hk := hb _ (List.getElem_mem (l := b.psym) (n := q) (by omega))
      rcases h.old q _ h1 with h2 | ⟨h2, _⟩
      · rw [h2] at ha; cases ha; exact .inl hk
      · rw [hk] at h2; cases h2
  by_cases hu : a.kind = .unknown
  · rw [if_pos hu]
    rcases hold with h | h
    · rw [hu] at h; cases h
    · exact .inr ⟨.inr (.inl rfl), h.2⟩
  · rw [if_neg hu]; exact hold

theorem stmts_function {st : SymTab} {ss : List Src.Stmt} {code : List Inst} (h : StmtsCode st ss code) : ∀ f ∈ ss.filterMap Src.Stmt.function?, ∃ t id, Fnamed st f t id := by
  induction h with
  | nil => intro f hf; cases hf
  | @cons s ss c d hs _ ih =>
    intro f hf
    obtain ⟨x, hx, hxf⟩ := List.mem_filterMap.1 hf
    rcases List.mem_cons.1 hx with rfl | hx
    · cases hs <;> first | (cases hxf; exact ⟨_, _, ‹_›⟩) | cases hxf
    · exact ih f (List.mem_filterMap.2 ⟨x, hx, hxf⟩)

theorem lines_function {st : SymTab} {i : Nat} {prog : Src.Program} {code : List Inst} (h : LinesCode st i prog code) : ∀ f ∈ prog.functions, ∃ t id, Fnamed st f t id := by
  induction h with
  | nil => intro f hf; cases hf
  | cons hc _ ih =>
    intro f hf
    rcases List.mem_append.1 (show f ∈ _ ++ _ from hf) with hf | hf
    · exact stmts_function hc f hf
    · exact ih f hf

theorem ready_proper {prog : Src.Program} (h : prog.Apart) (st : SymTab) : Proper prog.functions (initBuiltins (clearSymbolTableNames st)) (prog.flatMap (·.2)) := by
  refine ⟨fresh_apart _ st, fun s hs => ?_⟩
  obtain ⟨l, hl, hs⟩ := List.mem_flatMap.1 hs
  refine ⟨fun w hw => ⟨w, List.mem_flatMap.2 ⟨l, hl, List.mem_filterMap.2 ⟨s, hs, hw⟩⟩, rfl⟩, fun w hw => ?_⟩
  rintro ⟨f, h1, h2⟩
  exact h f h1 w (List.mem_flatMap.2 ⟨l, hl, List.mem_flatMap.2 ⟨s, hs, hw⟩⟩) h2

/-- The names of functions and arrays when a program is started. -/
theorem ready_functional {prog : Src.Program} {vm : VM} {n : Nat} {st st' : SymTab} {code : List Inst} {m k : Nat} (h : Added prog.functions n (initBuiltins (clearSymbolTableNames st)) st')
    (hw : WellNamed (symMakeUnknownArray st')) (hc : LinesCode (symMakeUnknownArray st') 0 prog code) :
    Functional m k (symMakeUnknownArray st') (Src.start prog vm).fns := by
  intro q s hs w hn
  refine ⟨fun hk => ?_, fun hk => .inl ?_⟩
  · simp only [Src.start]
    rw [if_neg]
    rintro ⟨f, h1, h2⟩
    obtain ⟨t, id, r, x, x1, x2, x3, _⟩ := lines_function hc f h1
    have := hw.uniq w true q r ⟨s, hs, hn, by rw [hk]; decide⟩ ⟨x, x1, Eq.trans x2 h2, by rw [x3]; decide⟩
    subst this
    rw [hs] at x1; cases x1
    rw [hk] at x3; cases x3
  · obtain ⟨u1, u2, u3, u4, u5, u6⟩ := (compiled_unused (fresh_kind st) h s (List.mem_of_getElem? hs)).resolve_left (by rw [hk]; decide)
    refine ⟨u2, u6, ?_⟩
    have hq := hs
    rw [unknownArray_get, Option.map_eq_some_iff] at hq
    obtain ⟨a, ha, hsa⟩ := hq
    have hak : a = s := by
      by_cases hu : a.kind = .unknown
      · rw [if_pos hu] at hsa; subst hsa; cases hk
      · rw [if_neg hu] at hsa; exact hsa
    subst hak
    have := (h.apart (fresh_apart _ st) a (List.mem_of_getElem? ha)).1 hk
    simp only [Src.start]
    exact if_pos (this.same hn)

theorem ready_run {env : Env} {vm : VM} {src : Source} {prog : Src.Program} (h : Src.Ready vm src prog) :
    ∃ (I : Image) (u : VM), I.Ok ∧ I.prog = prog ∧ I.out = vm.world.out ∧ I.stored.source = some src ∧ Matches I (Src.start prog vm) u ∧ ∀ brk n, runProgram env brk n vm =
      (match vmLoop env brk n 0 u with
      | .halt h => .halt h
      | .ok (e, vm') => .ok (some e, recordStopped e (runMessages e vm'))) := by
  obtain ⟨code, d, st', h1, h2, h3, h4, h5, h6⟩ := program_source (wellNamed_fresh vm.st) (ready_proper h.apart vm.st) h.lines
  obtain ⟨idx, hi⟩ := bcodeIndex_total (bc := ⟨code, d⟩) (src := src) (by
    intro l hl
    obtain ⟨pc, hp⟩ := List.getElem?_of_mem hl
    have := (lines_at h2 hp).2.1
    have hlen : prog.length = src.lines.length := by simpa using congrArg List.length (program_nums h.lines)
    omega)
  have hI := image_ok (out := vm.world.out) h.lines h.fits h.ascending h2 hi h6
  refine ⟨_, { resetControlState { vm with st := symMakeUnknownArray st', stored := ⟨some src, some ⟨code, d⟩, some idx⟩ } with
    cs := { code := some .stored, sourceLine := 0, pc := 0 }, stopped := false }, hI, rfl, rfl, rfl, ⟨⟨rfl, h3.unknown, ?_, Grows.refl _, ?_, ?_, ?_, .nil, .nil, ?_, ?_, rfl, (by show 1 < 4294967296; decide), ?_,
      h.traceBasic, h.traceFor, ?_, ?_⟩, rfl, rfl, .inl ⟨rfl, ?_, fun _ => rfl⟩, rfl⟩, fun brk n => ?_⟩
  · have hp : (initBuiltins (clearSymbolTableNames vm.st)).psym = builtinSymbols := initBuiltins_psym
    have hs := h.small
    have h26 : builtinSymbols.length = 26 := by decide
    have := h5.most
    rw [hp, h26] at this
    show (symMakeUnknownArray st').psym.length ≤ 65536
    simp only [symMakeUnknownArray, List.length_map]
    omega
  · exact parseSource_all nameable_tidy (allSym_fresh builtins_tidy vm.st) h1
  · exact ⟨unknown_known st', rfl, ready_functional h5 h3.unknown h2⟩
  · have hun := compiled_unused (fresh_kind vm.st) h5
    have e1 : numNamed (symMakeUnknownArray st') = fun _ => .fin 0 := by
      rw [numNamed_look]
      refine look_none fun s hs hk => ?_
      obtain ⟨_, u⟩ := (hun s hs).resolve_left (fun hb => by rw [hb] at hk; cases hk)
      simp [numView, u.1]
    have e2 : strNamed (symMakeUnknownArray st') = fun _ => [] := by
      rw [strNamed_look]
      refine look_none fun s hs hk => ?_
      obtain ⟨_, u⟩ := (hun s hs).resolve_left (fun hb => by rw [hb] at hk; cases hk)
      simp [strView, u.1]
    have e3 : numArrNamed (symMakeUnknownArray st') = fun _ => .missing := by
      rw [numArr_look]
      refine look_none fun s hs hk => ?_
      obtain ⟨_, u⟩ := (hun s hs).resolve_left (fun hb => by rw [hb] at hk; cases hk)
      simp [fieldView, arrView, u.1, V.numField, u.2.2.1]
    have e4 : strArrNamed (symMakeUnknownArray st') = fun _ => .missing := by
      rw [strArr_look]
      refine look_none fun s hs hk => ?_
      obtain ⟨_, u⟩ := (hun s hs).resolve_left (fun hb => by rw [hb] at hk; cases hk)
      simp [fieldView, arrView, u.1, V.strField, u.2.2.2.1]
    simp only [storeOf, resetControlState, Src.start, e1, e2, e3, e4]
  · intro f hf; cases hf
  · exact List.nodup_nil
  · show vm.world.out = vm.world.out ++ []
    rw [List.append_nil]
  · exact Nat.zero_le _
  · exact ⟨by simpa [resetControlState, Src.start] using lines_items h2, rfl, rfl, rfl⟩
  · simp only [Stands, Src.start, if_true, List.drop_zero]
    exact h2
  · have he : ensureProgramCompiled vm = .ok (true, resetControlState { vm with st := symMakeUnknownArray st', stored := ⟨some src, some ⟨code, d⟩, some idx⟩ }) := by
      unfold ensureProgramCompiled
      rw [h.stored]
      simp only [Option.isSome_none, Bool.false_eq_true, if_false, h1, hi]
    unfold runProgram
    rw [he, h.stored]
    simp only [Option.isNone_some, Bool.false_eq_true, if_false, run]
    rw [show resetControlState (resetControlState { vm with st := symMakeUnknownArray st', stored := ⟨some src, some ⟨code, d⟩, some idx⟩ }) =
      resetControlState { vm with st := symMakeUnknownArray st', stored := ⟨some src, some ⟨code, d⟩, some idx⟩ } from rfl]
    cases vmLoop env brk n 0 { resetControlState { vm with st := symMakeUnknownArray st', stored := ⟨some src, some ⟨code, d⟩, some idx⟩ } with
      cs := { code := some .stored, sourceLine := 0, pc := 0 }, stopped := false } with
    | halt h => rfl
    | ok r => rfl

/-- Compiling a program, and the DATA items of its code. -/
theorem program_compiled {vm : VM} {src : Source} {prog : Src.Program} (hs : vm.stored = ⟨some src, none, none⟩) 
    (hasc : Ascending (src.lines.map (·.num))) (hl : Src.LinesAs vm.keywordsAnywhere src.lines prog) (ha : prog.Apart) :
    ∃ vm', ensureProgramCompiled vm = .ok (true, vm') ∧ vm'.stored.source = some src ∧ allItems vm' = prog.data ∧ pending vm' = prog.data ∧
      (∀ n i, prog.findIdx? (fun l => l.1 == n) = some i → ∃ pc, lineStart vm' n = some pc ∧ itemsFrom vm' pc = Src.Program.data (prog.drop i)) ∧
      ∀ n, prog.findIdx? (fun l => l.1 == n) = none → lineStart vm' n = none := by
  obtain ⟨code, d, st', h1, h2, h3, h4, h5, h6⟩ := program_source (wellNamed_fresh vm.st) (ready_proper ha vm.st) hl
  obtain ⟨idx, hi⟩ := bcodeIndex_total (bc := ⟨code, d⟩) (src := src) (by
    intro l hl'
    obtain ⟨pc, hp⟩ := List.getElem?_of_mem hl'
    have := (lines_at h2 hp).2.1
    have hlen : prog.length = src.lines.length := by simpa using congrArg List.length (program_nums hl)
    omega)
  have he : ensureProgramCompiled vm = .ok (true, resetControlState { vm with st := symMakeUnknownArray st', stored := ⟨some src, some ⟨code, d⟩, some idx⟩ }) := by
    unfold ensureProgramCompiled
    rw [hs]
    simp only [Option.isSome_none, Bool.false_eq_true, if_false, h1, hi]
  obtain ⟨k1, k2⟩ := lines_found hl hasc h2 hi
  refine ⟨_, he, rfl, lines_items h2, ?_, fun n i hf => ?_, fun n hf => k2 n hf⟩
  · simpa [pending, resetControlState] using lines_items h2
  · obtain ⟨pc, a, b⟩ := k1 n i hf
    exact ⟨pc, a, lines_items b⟩

/- ### How the loop of the machine ends -/

theorem Travels.part {env : Env} {n : Nat} {a b : VM} (h : Travels env a n b) : ∀ {j : Nat}, j ≤ n → ∃ m, Travels env a j m := by
  induction h with
  | here => intro j hj; exact ⟨_, by rw [Nat.le_zero.1 hj]; exact .here⟩
  | step h1 h2 _ ih =>
    intro j hj
    cases j with
    | zero => exact ⟨_, .here⟩
    | succ j =>
      obtain ⟨m, hm⟩ := ih (j := j) (by omega)
      exact ⟨m, .step h1 h2 hm⟩

theorem Travels.fuel {env : Env} {brk : Nat → Bool} {n : Nat} {a b : VM} (h : Travels env a n b) (hb : ∀ i, i < n → brk i = false) {j : Nat} (hj : j ≤ n) :
    vmLoop env brk j 0 a = .halt .fuel := by
  obtain ⟨m, hm⟩ := h.part hj
  have := hm.loop (brk := brk) (k := 0) (j := 0) (fun i hi => by rw [Nat.zero_add]; exact hb i (by omega))
  rw [Nat.add_zero] at this
  rw [this]
  rfl

theorem vmLoop_over {env : Env} {brk : Nat → Bool} {I : Image} {c : Src.Config} {vm : VM} (hI : I.Ok) (h : Standing I c vm) (hc : vm.cs.code = some .stored) {n k : Nat}
    (ho : vm.stopped = true ∨ I.code.length ≤ vm.cs.pc ∨ brk k = true) : vmLoop env brk (n + 1) k vm = .ok (⟨none, brk k⟩, vm) := by
  obtain ⟨d, hd, _⟩ := hI.bcode
  have hu : curUsed vm = .ok I.code.length := by
    simp only [curUsed, V.curBcode, hc, V.codeOf, h.stored, hd, Bcode.used]
  unfold vmLoop
  simp only [hu]
  rw [if_neg]
  rintro ⟨h1, h2, h3⟩
  rcases ho with ho | ho | ho
  · simp [ho] at h2
  · omega
  · simp [ho] at h3

end LB
