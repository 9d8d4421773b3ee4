import Verif.Proofs.Dialogue
import Verif.Props.Batch
import Verif.Props.Dialogue
/- C60: naming a file on the command line, and loading and running it in a dialogue. -/
namespace LB
open LB.Spec _root_.Spec

/-- C60.  Naming a file on the command line does what loading it with LOAD and typing RUN does at any time in a dialogue
with the same switches, whatever happened in the dialogue before, for every file whatever, with every switch, and also if
the run is interrupted: the process reports a malformed file if LOAD does; otherwise it halts as RUN halts, or both print the same
and leave the same input.
Missing: RENUM must not have been used in the dialogue, and the line last read by INPUT is empty (as for `C34_partial`); the file
exists, and has at most 65536 names. -/
theorem C60_load_run_partial {may : Cmd → VM → Prop} (hm : ∀ vm, ¬ may .renum vm) (h : Host) {args : List CStr} {f text : CStr} (ha : RunsFile args f) (w : World)
    {s : LB.Session} (hs : State may .idle s.vm) (hv : Switched args s.vm) (hfile : s.files f = some text) (hf : h.files f = some text)
    (hw : s.vm.world.stdin = w.stdin ∧ s.vm.world.rng = (seeded h.ctx.env w (seedings args)).rng ∧ s.vm.world.ticks = (seeded h.ctx.env w (seedings args)).ticks)
    (hi : s.vm.input = [])
    (hn : ∀ src b st, loadSourceFile f (some text) = .ok (some src) → parseSource src (initBuiltins newSymbolTable) s.vm.keywordsAnywhere = .ok (some b, st) → st.psym.length ≤ 65536)
    {line tail line' : List Char} (hl : SaysWord "LOAD" line tail) (hq : Quoting tail f) (hr : SaysRun line') :
    match interpret h.ctx s line with
    | .halt e => lbasic h args w = .halt e
    | .ok s1 =>
      match interpret h.ctx s1 line' with
      | .halt e => lbasic h args w = .halt e
      | .ok s2 => ∃ w', lbasic h args w = .ok (0, w') ∧ w'.stdin = s2.vm.world.stdin ∧
          ∃ t, s2.vm.world.out = s.vm.world.out ++ t ∧ w'.out = w.out ++ banner args ++ t ++ report args h.memory := by
  have hwo : (seeded h.ctx.env w (seedings args)).out = w.out := by cases seedings args <;> rfl
  have hwi : (seeded h.ctx.env w (seedings args)).stdin = w.stdin := by cases seedings args <;> rfl
  obtain ⟨-, pre, word, rfl, k1, k2, k3⟩ := hl
  obtain ⟨⟨pre', word', tail', rfl, m1, m2, m3, m4⟩, -⟩ := hr
  obtain ⟨sp', e1, e2⟩ := demarcate_quoting hq
  rw [lbasic_file h w ha hv, hf, interpret_command h.ctx s k1 k3 (tail_quote hq) (n := "LOAD") (k := .load) (by decide) k2]
  simp only [command, loadCommand, e1, e2, if_true, hfile]
  rcases C03_load_total f text with ⟨src, hload⟩ | ⟨m, hload⟩
  · have hva : vmLoadSource s.vm f (some text) = .ok (true, storedProgramChanged { s.vm with stored := { s.vm.stored with source := some src } }) := by
      simp only [vmLoadSource, hload]
    generalize hnv : newVm s.vm.keywordsAnywhere s.vm.traceBasic s.vm.traceFor ((seeded h.ctx.env w (seedings args)).put (banner args)) = nv
    have hvb : vmLoadSource nv f (some text) = .ok (true, storedProgramChanged { nv with stored := { nv.stored with source := some src } }) := by
      simp only [vmLoadSource, hload]
    have sa := State.load f _ _ hs hva
    have sb : State may .idle (storedProgramChanged { nv with stored := { nv.stored with source := some src } }) := State.load f _ _ (hnv ▸ .start _ _ _ _) hvb
    rw [hva, hvb]
    simp only
    rw [interpret_command h.ctx _ m1 m3 m4 (n := "RUN") (k := .run) (by decide) m2]
    simp only [command, LB.Session.withVm]
    have hcl : vmClearValues (storedProgramChanged { nv with stored := { nv.stored with source := some src } }) =
        storedProgramChanged { nv with stored := { nv.stored with source := some src } } := by
      have : clearSymbolTableValues nv.st = nv.st := by subst hnv; show clearSymbolTableValues (initBuiltins newSymbolTable) = initBuiltins newSymbolTable; rfl
      show { storedProgramChanged { nv with stored := { nv.stored with source := some src } } with st := clearSymbolTableValues nv.st } = _
      rw [this]
      rfl
    have hsame := same_run hm sb sa rfl (by subst hnv; rfl) (by subst hnv; rfl) (by subst hnv; rfl)
      (by subst hnv; exact ⟨hwi.trans hw.1.symm, hw.2.1.symm, hw.2.2.symm⟩) (by subst hnv; exact hi.symm) ?_ h.ctx.env h.ctx.brk h.ctx.fuel
    · rw [hcl] at hsame
      rcases hsame with ⟨e, a', b', q1, q2, q3⟩ | ⟨x, q1, q2⟩
      · rw [q1, q2]
        obtain ⟨t, t1, t2⟩ := q3.out
        refine ⟨_, rfl, q3.stdin, t, t2, ?_⟩
        simp only [World.put, t1]
        subst hnv
        simp only [storedProgramChanged, newVm, World.put, hwo]
      · rw [q1, q2]
    · intro vm' hc
      rw [hcl] at hc
      subst hnv
      have hx : ∀ st, initBuiltins (clearSymbolTableNames st) = initBuiltins newSymbolTable := fun _ => rfl
      simp only [ensureProgramCompiled, storedProgramChanged, newVm, hx] at hc
      generalize hp : parseSource src (initBuiltins newSymbolTable) s.vm.keywordsAnywhere = r at hc
      cases r with
      | halt _ => cases hc
      | ok r =>
        obtain ⟨b, st⟩ := r
        cases b with
        | none => cases hc
        | some b =>
          simp only [Option.isSome_none, Bool.false_eq_true, if_false] at hc
          generalize bcodeIndex b src = x at hc
          cases x with
          | halt _ => cases hc
          | ok x =>
            injection hc with hc
            injection hc with _ hc
            subst hc
            exact hn src b st hload hp
  · have hva : ∀ vm, vmLoadSource vm f (some text) = .halt (.exit m) := by
      intro vm; simp only [vmLoadSource, hload]
    rw [hva, hva]

/-- The case of a run that ends. -/
theorem load_run {may : Cmd → VM → Prop} (hm : ∀ vm, ¬ may .renum vm) (h : Host) {args : List CStr} {f text : CStr} (ha : RunsFile args f) (w : World)
    {s : LB.Session} (hs : State may .idle s.vm) (hv : Switched args s.vm) (hfile : s.files f = some text) (hf : h.files f = some text)
    (hw : s.vm.world.stdin = w.stdin ∧ s.vm.world.rng = (seeded h.ctx.env w (seedings args)).rng ∧ s.vm.world.ticks = (seeded h.ctx.env w (seedings args)).ticks)
    (hi : s.vm.input = [])
    (hn : ∀ src b st, loadSourceFile f (some text) = .ok (some src) → parseSource src (initBuiltins newSymbolTable) s.vm.keywordsAnywhere = .ok (some b, st) → st.psym.length ≤ 65536)
    {line tail line' : List Char} (hl : SaysWord "LOAD" line tail) (hq : Quoting tail f) (hr : SaysRun line') {s1 s2 : LB.Session}
    (h1 : interpret h.ctx s line = .ok s1) (h2 : interpret h.ctx s1 line' = .ok s2) :
    ∃ w', lbasic h args w = .ok (0, w') ∧ w'.stdin = s2.vm.world.stdin ∧
      ∃ t, s2.vm.world.out = s.vm.world.out ++ t ∧ w'.out = w.out ++ banner args ++ t ++ report args h.memory := by
  have := C60_load_run_partial hm h ha w hs hv hfile hf hw hi hn hl hq hr
  simp only [h1, h2] at this
  exact this

namespace Demo

/-- A program that reads, prints and fails. -/
def text : CStr := "10 READ A:PRINT A;X\n20 DATA 5\n30 NEXT\n".toList

/-- A process that finds one file. -/
def host : Host where
  ctx := ⟨Demo.env, fun _ => false, 100, fun _ => true⟩
  files := fun f => if f = "z".toList then some text else none
  turns := 10
  memory := []

/-- What loading and running shows. -/
def loaded (vm : VM) : Option CStr :=
  match interpret host.ctx ⟨vm, host.files, false⟩ "LOAD \"z\"".toList with
  | .halt _ => none
  | .ok s =>
    match interpret host.ctx s "RUN".toList with
    | .halt _ => none
    | .ok s => some s.vm.world.out

/-- How many names the file has. -/
def names : Nat :=
  match loadSourceFile "z".toList (some text) with
  | .ok (some src) =>
    match parseSource src (initBuiltins newSymbolTable) false with
    | .ok (_, st) => st.psym.length
    | .halt _ => 0
  | _ => 0

theorem names_most {src : Source} {b : Bcode} {st : SymTab} (h1 : loadSourceFile "z".toList (some text) = .ok (some src))
    (h2 : parseSource src (initBuiltins newSymbolTable) false = .ok (some b, st)) : st.psym.length ≤ 65536 := by
  have h : names ≤ 65536 := by decide +kernel
  unfold names at h
  rw [h1] at h
  simp only [h2] at h
  exact h

theorem loaded_spec {vm : VM} {out : CStr} (h : loaded vm = some out) :
    ∃ s1 s2, interpret host.ctx ⟨vm, host.files, false⟩ "LOAD \"z\"".toList = .ok s1 ∧ interpret host.ctx s1 "RUN".toList = .ok s2 ∧ s2.vm.world.out = out := by
  unfold loaded at h
  split at h
  · cases h
  · split at h
    · cases h
    · cases h; exact ⟨_, _, by assumption, by assumption, rfl⟩

end Demo

set_option maxRecDepth 100000 in
-- The dialogue stopped inside a loop and a subroutine of another program with X set and part of its DATA read.
example : ∃ vm : VM, State (fun k _ => k ≠ .renum) .idle vm ∧ Demo.loaded vm = some " 5  0 \n".toList ∧
    ∃ w', lbasic Demo.host ["-q".toList, "z".toList] {} = .ok (0, w') ∧ w'.out = " 5  0 \n".toList := by
  obtain ⟨vm, h1, h2⟩ := Demo.left_with (may := fun k _ => k ≠ .renum) (lines := [(10, "X=3"), (20, "READ B"), (30, "GOSUB 50"), (40, "DATA 7,8"), (50, "FOR I=1 TO 3"), (60, "STOP")])
    (stdin := "") (brk := fun _ => false)
    (P := fun vm => decide (Demo.loaded vm = some " 5  0 \n".toList) && vm.stopped && !vm.keywordsAnywhere && !vm.traceBasic && !vm.traceFor && decide (vm.world = {}) && vm.input.isEmpty)
    (by decide +kernel)
  simp only [Bool.and_eq_true, decide_eq_true_eq, Bool.not_eq_true', List.isEmpty_iff] at h2
  obtain ⟨⟨⟨⟨⟨⟨h2, h3⟩, h4⟩, h5⟩, h6⟩, h7⟩, h8⟩ := h2
  refine ⟨vm, h1, h2, ?_⟩
  have ha : RunsFile ["-q".toList, "z".toList] "z".toList := by
    refine ⟨?_, by decide, by decide, by decide, ?_, by decide⟩
    · intro a ha
      simp only [List.mem_cons, List.not_mem_nil, or_false] at ha
      rcases ha with rfl | rfl
      · exact .inr ⟨.quiet, by decide, by decide, by decide⟩
      · exact .inl (by decide)
    · intro a ha m
      simp only [List.mem_cons, List.not_mem_nil, or_false] at ha
      rcases ha with rfl | rfl <;> cases m <;> decide
  have hw : vm.world.stdin = ({} : World).stdin ∧ vm.world.rng = 0 ∧ vm.world.ticks = 0 := by rw [h7]; exact ⟨rfl, rfl, rfl⟩
  have hb : Blanks [] := by intro c hc; cases hc
  have hl : SaysWord "LOAD" "LOAD \"z\"".toList " \"z\"".toList := ⟨by decide, [], "LOAD".toList, by decide, hb, by decide, by decide⟩
  have hq : Quoting " \"z\"".toList "z".toList := ⟨" ".toList, ['"'], by decide, by unfold Blanks; decide, .inr ⟨[], rfl, hb⟩, by decide, by decide⟩
  have hr : SaysRun "RUN".toList := ⟨⟨[], "RUN".toList, [], by decide, hb, by decide, by decide, by decide⟩, by decide⟩
  have hz : Demo.host.files "z".toList = some Demo.text := by simp only [Demo.host, if_true]
  obtain ⟨s1, s2, k1, k2, k3⟩ := Demo.loaded_spec h2
  obtain ⟨w', m1, -, t, m2, m3⟩ := load_run (fun _ h => h rfl) Demo.host ha {} (s := ⟨vm, Demo.host.files, false⟩) h1
    ⟨by rw [h4]; decide, by rw [h5]; decide, by rw [h6]; decide⟩ hz hz hw h8 (fun src b st e1 e2 => by rw [h4] at e2; exact Demo.names_most e1 e2) hl hq hr k1 k2
  refine ⟨w', m1, ?_⟩
  rw [m3, show banner ["-q".toList, "z".toList] = [] from if_pos (by decide), show report ["-q".toList, "z".toList] Demo.host.memory = [] from if_neg (by decide), ← k3, m2, h7]
  simp

end LB
