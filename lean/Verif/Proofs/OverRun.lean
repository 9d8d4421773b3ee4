import Verif.Proofs.Over
import Verif.Proofs.RunEnds
import Verif.Proofs.Crash
import Verif.Spec.Residue
/- What a run does does not depend on values left below on the evaluation stacks. -/
namespace LB
open LB.Spec Code
namespace V

/-- Ends of runs that are the same above what lies below. -/
inductive TopsEnd (o : Under) : Outcome (RunEnd × VM) → Outcome (RunEnd × VM) → Prop
  | ok {e a} : TopsEnd o (.ok (e, a)) (.ok (e, over o a))
  | halt {h} : TopsEnd o (.halt h) (.halt h)
  | fullNum {r i b} (h : o.nums ≠ []) : TopsEnd o r (.ok (⟨some .numOverflow, i⟩, b))
  | fullStr {r i b} (h : o.strs ≠ []) : TopsEnd o r (.ok (⟨some .strOverflow, i⟩, b))

variable (ns : List Dbl) (ss : List CStr)
local notation "Δ" => Under.mk ns ss none

theorem lifts_execute (env : Env) : Lifts Δ (execute env) := by
  have h1 := lifts_curBcode ns ss
  have h2 := lifts_exec ns ss env
  refine Lifts.bind h1 (fun bc => Lifts.get (fun _ => rfl) (fun vm => ?_))
  cases bc.inst[vm.cs.pc]? with
  | none => exact Lifts.halt _
  | some i =>
    refine Lifts.bind (h2 i) (fun f => ?_)
    cases f
    · exact Lifts.modify (fun _ => rfl)
    · exact Lifts.pure _

theorem curUsed_over (vm : VM) : curUsed (over Δ vm) = curUsed vm := by
  unfold curUsed curBcode
  rw [over_cs]
  cases vm.cs.code with
  | none => rfl
  | some r => simp only [over_codeOf]; cases (codeOf vm r).bcode <;> rfl

theorem lifts_loop (env : Env) (brk : Nat → Bool) {ph : Phase} (n k : Nat) {a : VM} (o : Ordered ph a) (hr : Running ph a) (ht : Tab a.st)
    (hl : a.st.psym.length ≤ 65536) : TopsEnd Δ (vmLoop env brk n k a) (vmLoop env brk n k (over Δ a)) := by
  induction n generalizing k a with
  | zero => exact .halt
  | succ n ih =>
    unfold vmLoop
    rw [curUsed_over, over_cs, show (over Δ a).stopped = a.stopped from rfl]
    cases hu : curUsed a with
    | halt y => exact .halt
    | ok used =>
      simp only
      split
      · rename_i hg
        have hat : ∃ i, At a i := by
          unfold curUsed curBcode at hu
          cases hr : a.cs.code with
          | none => rw [hr] at hu; cases hu
          | some r =>
            rw [hr] at hu
            cases hb : (codeOf a r).bcode with
            | none => simp only [hb] at hu; cases hu
            | some bc =>
              simp only [hb] at hu
              cases hu
              exact ⟨bc.inst[a.cs.pc]'hg.1, r, bc, hr, hb, List.getElem?_eq_getElem hg.1⟩
        obtain ⟨i, hat⟩ := hat
        have hs := lifts_execute ns ss env a
        obtain ⟨h1, h2⟩ := execute_flow env o hr ht hl
        cases ha : execute env a with
        | ok u a' =>
          have hm := execute_moved hat (.inl ha)
          rw [ha] at hs h1 h2
          generalize execute env (over Δ a) = rb at hs
          cases hs with
          | ok => exact ih (k + 1) h1.1 h2 (hm.tab ht) (by rw [hm.length]; exact hl)
          | fullNum h' => exact .fullNum h'
          | fullStr h' => exact .fullStr h'
        | err e a' =>
          rw [ha] at hs h2
          have hmal : ¬ Malformed e := h2
          generalize execute env (over Δ a) = rb at hs
          cases hs with
          | err => exact .ok
          | fullNum h' => exact .fullNum h'
          | fullStr h' => exact .fullStr h'
          | emptyNum => exact absurd (by decide) hmal
          | emptyStr => exact absurd (by decide) hmal
        | halt y =>
          rw [ha] at hs
          generalize execute env (over Δ a) = rb at hs
          cases hs with
          | halt => exact .halt
          | fullNum h' => exact .fullNum h'
          | fullStr h' => exact .fullStr h'
      · exact .ok

end V

theorem over_emptied (vm : VM) : V.over ⟨vm.stack, vm.strstack, none⟩ (emptied vm) = vm := rfl
theorem emptied_over (ns : List Dbl) (ss : List CStr) (vm : VM) : emptied (V.over ⟨ns, ss, none⟩ vm) = emptied vm := rfl

theorem over_messages (ns : List Dbl) (ss : List CStr) (e : RunEnd) (vm : VM) :
    recordStopped e (runMessages e (V.over ⟨ns, ss, none⟩ vm)) = V.over ⟨ns, ss, none⟩ (recordStopped e (runMessages e vm)) := by
  have h1 : runMessages e (V.over ⟨ns, ss, none⟩ vm) = V.over ⟨ns, ss, none⟩ (runMessages e vm) := by
    unfold runMessages
    rw [V.over_cs, show (V.over ⟨ns, ss, none⟩ vm).stopped = vm.stopped from rfl]
    simp only [V.over_codeOf]
    split
    · rfl
    · split <;> rfl
  rw [h1]
  generalize runMessages e vm = w
  unfold recordStopped
  rw [V.over_cs, show (V.over ⟨ns, ss, none⟩ w).stopped = w.stopped from rfl]
  split
  · split <;> rfl
  · rfl

/-- A statement does the same whatever lies on the evaluation stacks, unless they are full. -/
theorem typed_over {may : Cmd → VM → Prop} (hm : ∀ vm, may .cont vm → StoppedBetween vm) {vm : VM} (h : State may .idle vm) {line : CStr}
    (hl : line.length < cmdSize) (hn : FewNames vm line) (env : Env) (brk : Nat → Bool) (n : Nat) :
    (∃ x, runImmediate env brk n (emptied vm) line = .halt x ∧ runImmediate env brk n vm line = .halt x) ∨
    (∃ e a b, runImmediate env brk n (emptied vm) line = .ok (e, a) ∧ runImmediate env brk n vm line = .ok (e, b) ∧ emptied a = emptied b) ∨
    ∃ e b, runImmediate env brk n vm line = .ok (e, b) ∧ StackFull e := by
  have hcomp : (∃ x, ensureProgramCompiled { emptied vm with immediate := {} } = .halt x ∧ ensureProgramCompiled { vm with immediate := {} } = .halt x) ∨
      ∃ c a b, ensureProgramCompiled { emptied vm with immediate := {} } = .ok (c, a) ∧ ensureProgramCompiled { vm with immediate := {} } = .ok (c, b) ∧
        a.stack = [] ∧ a.strstack = [] ∧ emptied b = a := by
    unfold ensureProgramCompiled
    rw [show (emptied vm).stored = vm.stored from rfl, show (emptied vm).st = vm.st from rfl, show (emptied vm).keywordsAnywhere = vm.keywordsAnywhere from rfl]
    simp only
    cases vm.stored.source with
    | none => exact .inr ⟨true, _, _, rfl, rfl, rfl, rfl, rfl⟩
    | some src =>
      cases vm.stored.bcode with
      | some b => exact .inr ⟨true, _, _, rfl, rfl, rfl, rfl, rfl⟩
      | none =>
        simp only
        split
        · exact .inl ⟨_, rfl, rfl⟩
        · cases parseSource src (initBuiltins (clearSymbolTableNames vm.st)) vm.keywordsAnywhere with
          | halt x => exact .inl ⟨x, rfl, rfl⟩
          | ok r =>
            obtain ⟨r, st⟩ := r
            cases r with
            | none => exact .inr ⟨false, _, _, rfl, rfl, rfl, rfl, rfl⟩
            | some bc =>
              simp only
              cases bcodeIndex bc src with
              | halt x => exact .inl ⟨x, rfl, rfl⟩
              | ok idx => exact .inr ⟨true, _, _, rfl, rfl, rfl, rfl, rfl⟩
  rcases hcomp with ⟨x, h1, h2⟩ | ⟨c, a, b, h1, h2, h3, h4, h5⟩
  · left
    refine ⟨x, ?_, ?_⟩ <;> simp only [runImmediate, h1, h2]
  · simp only [runImmediate, h1, h2]
    cases c with
    | false => exact .inr (.inl ⟨none, a, b, rfl, rfl, by rw [← h5]; rfl⟩)
    | true =>
      subst h5
      simp only
      rw [show (emptied b).st = b.st from rfl]
      cases hp : parseSource (wrapSourceText line) b.st false with
      | halt x => exact .inl ⟨x, rfl, rfl⟩
      | ok r =>
        obtain ⟨r, st⟩ := r
        cases r with
        | none => exact .inr (.inl ⟨none, _, _, rfl, rfl, rfl⟩)
        | some bc =>
          simp only
          cases hi : bcodeIndex bc (wrapSourceText line) with
          | halt x => exact .inl ⟨x, rfl, rfl⟩
          | ok idx =>
            simp only
            have hs : State may .typed (startAt { code := some .immediate, sourceLine := 0, pc := 0 }
                { b with st := st, immediate := ⟨some (wrapSourceText line), some bc, some idx⟩, immediateData := 0 }) :=
              State.typed line (.compile true h.noImmediate h2) hl (compiled_again h2) hp hi
            have hlen : st.psym.length ≤ 65536 := hn b st bc h2 hp
            obtain ⟨o, hr⟩ := state_running hm hs (by simp) hlen
            have ht := (state_base hs).tab
            have htop := V.lifts_loop b.stack b.strstack env brk (ph := .typed) n 0
              (a := startAt { code := some .immediate, sourceLine := 0, pc := 0 }
                { emptied b with st := st, immediate := ⟨some (wrapSourceText line), some bc, some idx⟩, immediateData := 0 })
              ⟨o.stored, o.index, o.imm, o.defs, o.rets, o.fors⟩ ?_ ht hlen
            · rw [run_loop (by simp), run_loop (by simp)]
              have ha : ({ ({ emptied b with st := st, immediate := ⟨some (wrapSourceText line), some bc, some idx⟩, immediateData := 0, cs := { code := some .immediate, sourceLine := 0, pc := 0 } } : VM) with stopped := false } : VM) =
                startAt { code := some .immediate, sourceLine := 0, pc := 0 } { emptied b with st := st, immediate := ⟨some (wrapSourceText line), some bc, some idx⟩, immediateData := 0 } := rfl
              have hb : ({ ({ b with st := st, immediate := ⟨some (wrapSourceText line), some bc, some idx⟩, immediateData := 0, cs := { code := some .immediate, sourceLine := 0, pc := 0 } } : VM) with stopped := false } : VM) =
                V.over ⟨b.stack, b.strstack, none⟩ (startAt { code := some .immediate, sourceLine := 0, pc := 0 } { emptied b with st := st, immediate := ⟨some (wrapSourceText line), some bc, some idx⟩, immediateData := 0 }) := rfl
              rw [ha, hb]
              generalize hva : vmLoop env brk n 0 (startAt _ _) = va at htop
              generalize hvb : vmLoop env brk n 0 (V.over _ _) = vb at htop
              cases htop with
              | halt => exact .inl ⟨_, rfl, rfl⟩
              | fullNum => exact .inr (.inr ⟨_, _, rfl, _, .inl rfl⟩)
              | fullStr => exact .inr (.inr ⟨_, _, rfl, _, .inr rfl⟩)
              | @ok e w =>
                refine .inr (.inl ⟨some e, _, _, rfl, rfl, ?_⟩)
                simp only [over_messages]
                generalize recordStopped e (runMessages e w) = u
                rw [show immediateState (V.over ⟨b.stack, b.strstack, none⟩ u) = immediateState u from rfl]
                split <;> rfl
            · exact Running.of_place ⟨.immediate, bc, rfl, .inr ⟨rfl, rfl⟩, rfl, (o.imm rfl bc rfl).1⟩

end LB
