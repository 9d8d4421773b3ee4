import Verif.Proofs.Current
import Verif.Proofs.Monitor
import Verif.Spec.Commands
import Verif.Proofs.Demo
/- Continuing, renumbering. -/
namespace LB
open LB.Spec _root_.Spec

/-- Sessions of the examples are sessions. -/
theorem Demo.go_session {c : Ctx} {n : Nat} {s s' : LB.Session} (h : Demo.go c n s = .ok s') (hs : Spec.Session s) :
    Spec.Session s' := by
  induction n generalizing s with
  | zero => simp only [Demo.go, Outcome.ok.injEq] at h; subst h; exact hs
  | succ n ih =>
    simp only [Demo.go] at h
    split at h
    · simp at h
    · simp only [Outcome.ok.injEq] at h; subst h; exact hs
    · rename_i hi
      exact ih h (.line c hs hi)

theorem vmLoop_fixed {env : Env} {brk : Nat → Bool} {n k : Nat} {vm vm' : VM} {e : RunEnd}
    (h : vmLoop env brk n k vm = .ok (e, vm')) :
    vm'.stored = vm.stored ∧ vm'.immediate = vm.immediate ∧ vm'.stoppedProgram = vm.stoppedProgram ∧
      vm'.keywordsAnywhere = vm.keywordsAnywhere := by
  induction n generalizing k vm with
  | zero => simp [vmLoop] at h
  | succ n ih =>
    simp only [vmLoop] at h
    split at h
    · simp at h
    · split at h
      · split at h
        · rename_i hx
          obtain ⟨a, b, c, d⟩ := execute_fixed _ hx (.inl rfl)
          obtain ⟨a', b', c', d'⟩ := ih h
          exact ⟨a'.trans a, b'.trans b, c'.trans c, d'.trans d⟩
        · rename_i hx
          simp only [Outcome.ok.injEq, Prod.mk.injEq] at h
          obtain ⟨-, rfl⟩ := h
          exact execute_fixed _ hx (.inr ⟨_, rfl⟩)
        · simp at h
      · simp only [Outcome.ok.injEq, Prod.mk.injEq] at h
        obtain ⟨-, rfl⟩ := h
        exact ⟨rfl, rfl, rfl, rfl⟩

/-- No program can be continued. -/
def NoCont (vm : VM) : Prop :=
  vm.stoppedProgram.code = none ∨ (vm.stoppedProgram.code = some .stored ∧ vm.stored.bcode = none)

theorem NoCont.refused {vm : VM} (h : NoCont vm) (env : Env) (brk : Nat → Bool) (n : Nat) :
    vmContinue env brk n vm = .ok (none, vm) := by
  unfold vmContinue
  rcases h with h | ⟨h, hb⟩
  · rw [h]
  · rw [h]
    simp only [V.codeOf, hb]

theorem NoCont.cleared {vm : VM} (h : vm.stoppedProgram.code = none ∨ vm.stoppedProgram.code = some .stored)
    (hb : vm.stored.bcode = none) : NoCont vm := h.imp id (fun h => ⟨h, hb⟩)

theorem NoCont.code {vm : VM} (h : NoCont vm) :
    vm.stoppedProgram.code = none ∨ vm.stoppedProgram.code = some .stored := h.imp id (·.1)

/-- Without immediate code. -/
abbrev dropImmediate (vm : VM) : VM := { vm with immediate := {} }

theorem NoCont.compile {vm vm' : VM} {b : Bool} (h : NoCont vm) (hc : ensureProgramCompiled vm = .ok (b, vm')) :
    NoCont vm' := by
  unfold ensureProgramCompiled at hc
  split at hc
  · split at hc
    · simp at hc
    · split at hc
      · simp at hc
      · simp only [Outcome.ok.injEq, Prod.mk.injEq] at hc
        obtain ⟨-, rfl⟩ := hc
        exact h
      · split at hc
        · simp at hc
        · simp only [Outcome.ok.injEq, Prod.mk.injEq] at hc
          obtain ⟨-, rfl⟩ := hc
          exact .inl rfl
  · simp only [Outcome.ok.injEq, Prod.mk.injEq] at hc
    obtain ⟨-, rfl⟩ := hc
    exact h

theorem NoCont.run {env : Env} {brk : Nat → Bool} {n : Nat} {vm vm' : VM} {e : RunEnd} (h : NoCont vm)
    (hr : LB.run env brk n vm = .ok (e, vm')) (h1 : e.interrupted = false) (h2 : vm'.stopped = false) : NoCont vm' := by
  unfold LB.run at hr
  split at hr
  · simp at hr
  · split at hr
    · simp at hr
    · rename_i e' w hl
      simp only [Outcome.ok.injEq, Prod.mk.injEq] at hr
      obtain ⟨rfl, rfl⟩ := hr
      obtain ⟨f1, f2, f3, f4⟩ := vmLoop_fixed hl
      obtain ⟨m1, m2, m3, m4⟩ := runMessages_same e' w
      unfold recordStopped at h2 ⊢
      split
      · rename_i hcs
        rw [if_pos hcs] at h2
        split
        · rename_i hst
          rw [if_pos hst] at h2
          rw [h1, Bool.or_false] at hst
          simp only at h2
          rw [h2] at hst
          simp at hst
        · exact .inl rfl
      · unfold NoCont at h ⊢
        rw [m1, m2, f1, f3]
        exact h

/-- A program that came to its end cannot be continued. -/
theorem NoCont.ran {env : Env} {brk : Nat → Bool} {n : Nat} {vm vm' : VM} {e : RunEnd} (hr : runProgram env brk n vm = .ok (some e, vm'))
    (h1 : e.interrupted = false) (h2 : vm'.stopped = false) : NoCont vm' := by
  unfold runProgram at hr
  split at hr
  · simp at hr
  · split at hr
    · simp at hr
    · simp at hr
    · split at hr
      · simp at hr
      · rename_i hrun
        simp only [Outcome.ok.injEq, Prod.mk.injEq, Option.some.injEq] at hr
        obtain ⟨rfl, rfl⟩ := hr
        exact NoCont.run (.inl rfl) hrun h1 h2

theorem since_noCont {vm vm' : VM} (h : NoCont vm) (hs : Since vm vm') : NoCont vm' := by
  induction hs with
  | refl => exact h
  | world w _ ih => exact ih
  | enter num text _ he ih =>
    unfold vmEnterSourceLine at he
    split at he
    · simp at he
    · simp only [Outcome.ok.injEq] at he
      subst he
      exact NoCont.cleared ih.code rfl
  | delete num _ ih =>
    unfold vmDeleteSourceLine
    split
    · exact ih
    · split
      · exact ih
      · exact NoCont.cleared ih.code rfl
  | new _ ih => exact NoCont.cleared ih.code rfl
  | load name c b _ hl ih =>
    unfold vmLoadSource at hl
    split at hl
    · simp at hl
    · simp only [Outcome.ok.injEq, Prod.mk.injEq] at hl
      obtain ⟨-, rfl⟩ := hl
      exact ih
    · simp only [Outcome.ok.injEq, Prod.mk.injEq] at hl
      obtain ⟨-, rfl⟩ := hl
      exact NoCont.cleared ih.code rfl
  | renum new old inc _ hr ih =>
    unfold renumber at hr
    split at hr
    · simp only [Outcome.ok.injEq] at hr; subst hr; exact ih
    · split at hr
      · simp at hr
      · simp only [Outcome.ok.injEq] at hr; subst hr; exact ih
      · split at hr
        · simp at hr
        · simp only [Outcome.ok.injEq] at hr; subst hr
          split <;> exact ih
  | compile b _ hc ih => exact ih.compile hc
  | run env brk n e _ hr he ih =>
    unfold runProgram at hr
    split at hr
    · simp only [Outcome.ok.injEq, Prod.mk.injEq] at hr
      obtain ⟨-, rfl⟩ := hr
      exact ih
    · split at hr
      · simp at hr
      · rename_i hc
        simp only [Outcome.ok.injEq, Prod.mk.injEq] at hr
        obtain ⟨-, rfl⟩ := hr
        exact NoCont.compile (vm := vmClearValues _) ih hc
      · split at hr
        · simp at hr
        · rename_i hrun
          simp only [Outcome.ok.injEq, Prod.mk.injEq] at hr
          obtain ⟨rfl, rfl⟩ := hr
          exact NoCont.run (.inl rfl) hrun (he _ rfl).1 (he _ rfl).2
  | typed env brk n line e _ hr he ih =>
    unfold runImmediate at hr
    split at hr
    · simp at hr
    · rename_i hc
      simp only [Outcome.ok.injEq, Prod.mk.injEq] at hr
      obtain ⟨-, rfl⟩ := hr
      exact NoCont.compile (vm := dropImmediate _) ih hc
    · rename_i vm' hc
      have hn : NoCont vm' := NoCont.compile (vm := dropImmediate _) ih hc
      simp only at hr
      split at hr
      · simp at hr
      · simp only [Outcome.ok.injEq, Prod.mk.injEq] at hr
        obtain ⟨-, rfl⟩ := hr
        exact hn
      · split at hr
        · simp at hr
        · split at hr
          · simp at hr
          · rename_i hrun
            simp only [Outcome.ok.injEq, Prod.mk.injEq] at hr
            obtain ⟨rfl, rfl⟩ := hr
            split
            · exact .inl rfl
            · rename_i hi
              have := he _ rfl
              rw [if_neg hi] at this
              refine NoCont.run ?_ hrun this.1 this.2
              exact hn

theorem edited_noCont {may : Cmd → VM → Prop} {vm : VM} (h : Edited may vm) : NoCont vm := by
  cases h with
  | enter num text hs he =>
    have := state_stopped hs
    unfold vmEnterSourceLine at he
    split at he
    · simp at he
    · simp only [Outcome.ok.injEq] at he
      subst he
      exact NoCont.cleared this rfl
  | delete num hs hm =>
    have := state_stopped hs
    unfold vmDeleteSourceLine at hm ⊢
    split
    · rename_i hn
      simp [hn] at hm
    · rename_i src hsrc
      split
      · rename_i hf
        simp [hsrc, hf] at hm
      · exact NoCont.cleared this rfl
  | new hs =>
    have := state_stopped hs
    exact NoCont.cleared this rfl
  | load name c hs hl =>
    have := state_stopped hs
    unfold vmLoadSource at hl
    split at hl
    · simp at hl
    · simp at hl
    · simp only [Outcome.ok.injEq, Prod.mk.injEq] at hl
      obtain ⟨-, rfl⟩ := hl
      exact NoCont.cleared this rfl

/-- The loop reaches a STOP. -/
theorem vmLoop_stop {env : Env} {vm : VM} (h : At vm .stop) (hs : vm.stopped = false) {brk : Nat → Bool} {k n : Nat}
    (h0 : brk k = false) (h1 : brk (k + 1) = false) :
    vmLoop env brk (n + 2) k vm = .ok (⟨none, false⟩, { vm with stopped := true }) := by
  have hat := h
  obtain ⟨r, b, hr, hb, hi⟩ := h
  have hused : curUsed vm = .ok b.used := by
    simp [curUsed, V.curBcode, hr, hb]
  have hused' : curUsed { vm with stopped := true } = .ok b.used := by
    have hb' : (V.codeOf { vm with stopped := true } r).bcode = some b := by
      cases r <;> exact hb
    simp [curUsed, V.curBcode, hr, hb']
  have hlt : vm.cs.pc < b.used := (List.getElem?_eq_some_iff.1 hi).1
  have hx : V.execute env vm = .ok () { vm with stopped := true } := by
    rw [V.execute_at env hat]
    rfl
  rw [vmLoop, hused]
  simp only [hlt, hs, h0, Bool.not_false, and_self, if_true, hx]
  rw [vmLoop, hused']
  simp [h1]

theorem renumLoop_nums {old inc : Nat} {ls : List SrcLine} {new prev : Nat} {m m' : LineMap} {ls' : List SrcLine}
    {e : Option CStr} (hs : Ascending (nums ls)) (hn : ∀ n ∈ nums ls, n < old → n < new) (hp : prev ≤ new)
    (hinc : 1 ≤ inc) (hw : new + inc * ((nums ls).filter (old ≤ ·)).length < 2 ^ 32 + inc)
    (h : renumLoop old inc ls new prev m = .ok (ls', m', e)) :
    nums ls' = renumbered new old inc (nums ls) ∧ e = none := by
  induction ls generalizing new prev m ls' m' with
  | nil =>
    simp only [renumLoop, Outcome.ok.injEq, Prod.mk.injEq] at h
    obtain ⟨rfl, -, rfl⟩ := h
    simp [nums, renumbered]
  | cons l ls ih =>
    have hs' : Ascending (nums ls) := (List.pairwise_cons.1 hs).2
    have hl : ∀ n ∈ nums ls, l.num < n := (List.pairwise_cons.1 hs).1
    simp only [renumLoop] at h
    by_cases hge : l.num ≥ old
    · rw [if_pos hge, if_neg (by omega)] at h
      have habove : ∀ n ∈ nums ls, old ≤ n := fun n hn => by have := hl n hn; omega
      have hf1 : (nums ls).filter (· < old) = [] := by
        rw [List.filter_eq_nil_iff]
        intro n hn
        have := habove n hn
        simp; omega
      have hf2 : (nums ls).filter (old ≤ ·) = nums ls := by
        rw [List.filter_eq_self]
        intro n hn
        have := habove n hn
        simp; omega
      have hfl : (nums (l :: ls)).filter (old ≤ ·) = l.num :: nums ls := by
        simp only [nums, List.map_cons] at hf2 ⊢
        rw [List.filter_cons_of_pos (by simpa using hge), hf2]
      have hfl1 : (nums (l :: ls)).filter (· < old) = [] := by
        simp only [nums, List.map_cons] at hf1 ⊢
        rw [List.filter_cons_of_neg (by simpa using hge), hf1]
      rw [hfl, List.length_cons] at hw
      split at h
      · simp at h
      · split at h
        · simp at h
        · rename_i r m1 hm1 ls1 m2 e1 hrec
          simp only [Outcome.ok.injEq, Prod.mk.injEq] at h
          obtain ⟨rfl, rfl, rfl⟩ := h
          have key : nums ls1 = (List.range (nums ls).length).map (fun i => new + inc + inc * i) ∧ e1 = none := by
            cases hls : ls with
            | nil =>
              rw [hls] at hrec
              simp only [renumLoop, Outcome.ok.injEq, Prod.mk.injEq] at hrec
              obtain ⟨rfl, -, rfl⟩ := hrec
              simp [nums]
            | cons l2 ls2 =>
              have hlen : 1 ≤ (nums ls).length := by rw [hls]; simp [nums]
              have hmul : inc * 1 ≤ inc * (nums ls).length := Nat.mul_le_mul_left inc hlen
              have hu : u32 (new + inc) = new + inc := by
                unfold u32
                rw [Nat.mod_eq_of_lt]
                rw [Nat.mul_add] at hw
                omega
              rw [hu] at hrec
              have := ih hs' (fun n hn hlt => by have := habove n hn; omega) (by omega) (by
                rw [hf2]
                rw [Nat.mul_add] at hw
                omega) hrec
              unfold renumbered at this
              rw [hf1, hf2, List.nil_append, hls] at this
              exact this
          refine ⟨?_, key.2⟩
          unfold renumbered
          rw [hfl, hfl1, List.nil_append, List.length_cons, List.range_succ_eq_map, List.map_cons, List.map_map]
          show new :: nums ls1 = _
          rw [key.1]
          simp only [Nat.mul_zero, Nat.add_zero, List.cons.injEq, true_and]
          apply List.map_congr_left
          intro i _
          simp only [Function.comp, Nat.succ_eq_add_one]
          rw [Nat.mul_add]
          omega
    · rw [if_neg hge] at h
      have hfl : (nums (l :: ls)).filter (old ≤ ·) = (nums ls).filter (old ≤ ·) := by
        simp only [nums, List.map_cons]
        rw [List.filter_cons_of_neg (by simpa using hge)]
      have hfl1 : (nums (l :: ls)).filter (· < old) = l.num :: (nums ls).filter (· < old) := by
        simp only [nums, List.map_cons]
        rw [List.filter_cons_of_pos (by simpa using hge)]
      rw [hfl] at hw
      split at h
      · simp at h
      · split at h
        · simp at h
        · rename_i r m1 hm1 ls1 m2 e1 hrec
          simp only [Outcome.ok.injEq, Prod.mk.injEq] at h
          obtain ⟨rfl, rfl, rfl⟩ := h
          have hln : l.num < new := hn l.num (by simp [nums]) (by omega)
          have := ih hs' (fun n hm hlt => hn n (by simp only [nums, List.map_cons, List.mem_cons]; exact .inr hm) hlt)
            (by omega) hw hrec
          refine ⟨?_, this.2⟩
          unfold renumbered at this ⊢
          rw [hfl, hfl1]
          show l.num :: nums ls1 = _
          rw [this.1]
          rfl

theorem renumLoop_refused {old inc : Nat} {ls : List SrcLine} {new prev : Nat} {m m' : LineMap} {ls' : List SrcLine}
    {e : Option CStr} (hs : Ascending (nums ls)) (hn : new < prev ∨ ∃ n ∈ nums ls, n < old ∧ new < n)
    (ha : ∃ n ∈ nums ls, old ≤ n) (hp : ∀ n ∈ nums ls, prev ≤ n)
    (h : renumLoop old inc ls new prev m = .ok (ls', m', e)) : ls' = ls ∧ e ≠ none := by
  induction ls generalizing prev m ls' m' with
  | nil => simp [nums] at ha
  | cons l ls ih =>
    have hs' : Ascending (nums ls) := (List.pairwise_cons.1 hs).2
    have hl : ∀ n ∈ nums ls, l.num < n := (List.pairwise_cons.1 hs).1
    have hmem : ∀ n, n ∈ nums (l :: ls) → n = l.num ∨ n ∈ nums ls := by
      intro n hn
      simpa [nums] using hn
    simp only [renumLoop] at h
    by_cases hge : l.num ≥ old
    · rw [if_pos hge] at h
      have hlt : new < prev := by
        rcases hn with hn | ⟨n, h1, h2, h3⟩
        · exact hn
        · rcases hmem n h1 with rfl | h1
          · omega
          · have := hl n h1; omega
      rw [if_pos hlt] at h
      simp only [Outcome.ok.injEq, Prod.mk.injEq] at h
      obtain ⟨rfl, -, rfl⟩ := h
      simp
    · rw [if_neg hge] at h
      have hpl : prev ≤ l.num := hp l.num (by simp [nums])
      split at h
      · simp at h
      · split at h
        · simp at h
        · rename_i ls1 m2 e1 hrec
          simp only [Outcome.ok.injEq, Prod.mk.injEq] at h
          obtain ⟨rfl, -, rfl⟩ := h
          have := ih hs' (by
              rcases hn with hn | ⟨n, h1, h2, h3⟩
              · exact .inl (by omega)
              · rcases hmem n h1 with rfl | h1
                · exact .inl h3
                · exact .inr ⟨n, h1, h2, h3⟩) (by
              obtain ⟨n, h1, h2⟩ := ha
              rcases hmem n h1 with rfl | h1
              · omega
              · exact ⟨n, h1, h2⟩) (fun n hn => Nat.le_of_lt (hl n hn)) hrec
          exact ⟨by rw [this.1], this.2⟩

theorem sourceReplace_nums {src src' : Source} {line pos : Nat} {a b : CStr}
    (h : sourceReplace src line pos a b = some src') : nums src'.lines = nums src.lines := by
  unfold sourceReplace at h
  split at h
  · simp at h
  · rename_i sl hsl
    simp only at h
    split at h
    · simp only [Option.some.injEq] at h
      subst h
      simp only [nums, List.map_set]
      apply List.ext_getElem?
      intro i
      rw [List.getElem?_set]
      split
      · rename_i hi
        subst hi
        have hlt := (List.getElem?_eq_some_iff.1 hsl).1
        rw [List.length_map, if_pos hlt, List.getElem?_map, hsl]
        rfl
      · rfl
    · simp at h

/-- The source after retargeting one line. -/
def RenumRes.source : RenumRes → Source
  | .done src _ => src
  | .bail src _ => src

theorem renumTokens_nums {m : LineMap} {line n : Nat} {src : Source} {tok : Tok} {lex : Lex} {r : RenumRes}
    (h : renumTokens m line n src tok lex = .ok r) : nums r.source.lines = nums src.lines := by
  induction n generalizing src tok lex with
  | zero => simp [renumTokens] at h
  | succ n ih =>
    simp only [renumTokens] at h
    split at h
    · simp only [Outcome.ok.injEq] at h; subst h; rfl
    · split at h
      · split at h
        · simp at h
        · split at h
          · split at h
            · simp at h
            · exact ih h
          · split at h
            · simp only [Outcome.ok.injEq] at h; subst h; rfl
            · rename_i hr
              have hn := sourceReplace_nums hr
              split at h
              · simp at h
              · split at h
                · simp at h
                · split at h
                  · simp only [Outcome.ok.injEq] at h; subst h; exact hn
                  · split at h
                    · simp at h
                    · rw [← hn]; exact ih h
      · split at h
        · simp at h
        · exact ih h

theorem renumLines_nums {m : LineMap} {todo line : Nat} {src src' : Source} {lex : Lex} {msg : Option String}
    (h : renumLines m todo line src lex = .ok (src', msg)) : nums src'.lines = nums src.lines := by
  induction todo generalizing line src lex with
  | zero =>
    simp only [renumLines, Outcome.ok.injEq, Prod.mk.injEq] at h
    rw [← h.1]
  | succ todo ih =>
    simp only [renumLines] at h
    split at h
    · simp at h
    · split at h
      · simp at h
      · rename_i tok lex1 _
        split at h
        · simp at h
        · rename_i hb
          simp only [Outcome.ok.injEq, Prod.mk.injEq] at h
          rw [← h.1]
          exact renumTokens_nums hb
        · rename_i hb
          rw [ih h]
          exact renumTokens_nums hb

theorem lines_nums {vm : VM} {src : Source} (h : vm.stored.source = some src) : (lines vm).map (·.1) = nums src.lines := by
  unfold lines nums
  rw [h]
  simp only [List.map_map]
  rfl

theorem renumber_nums {vm vm' : VM} {new old inc : Nat} (hs : Ascending ((lines vm).map (·.1)))
    (hn : ∀ n ∈ (lines vm).map (·.1), n < old → n < new) (hinc : 1 ≤ inc)
    (hw : new + inc * (((lines vm).map (·.1)).filter (old ≤ ·)).length < 2 ^ 32 + inc)
    (h : renumber vm new old inc = .ok vm') :
    (lines vm').map (·.1) = renumbered new old inc ((lines vm).map (·.1)) := by
  unfold renumber at h
  split at h
  · rename_i hsrc
    simp only [Outcome.ok.injEq] at h
    subst h
    simp [lines, hsrc, renumbered]
  · rename_i src hsrc
    rw [lines_nums hsrc] at hs hn hw ⊢
    split at h
    · simp at h
    · rename_i hl
      have := (renumLoop_nums hs hn (Nat.zero_le _) hinc hw hl).2
      simp at this
    · rename_i ls m hl
      have hl' := (renumLoop_nums hs hn (Nat.zero_le _) hinc hw hl).1
      split at h
      · simp at h
      · rename_i src' msg hr
        simp only [Outcome.ok.injEq] at h
        have hq : vm'.stored.source = some src' := by
          rw [← h]
          cases msg <;> rfl
        rw [lines_nums hq, renumLines_nums hr]
        exact hl'

theorem renumbered_ascending {new old inc : Nat} {ns : List Nat} (hs : Ascending ns) (hn : ∀ n ∈ ns, n < old → n < new)
    (hinc : 1 ≤ inc) : Ascending (renumbered new old inc ns) := by
  unfold renumbered Ascending at *
  rw [List.pairwise_append]
  refine ⟨hs.filter _, ?_, ?_⟩
  · rw [List.pairwise_map]
    refine List.Pairwise.imp ?_ List.pairwise_lt_range
    intro a b hab
    have : inc * a < inc * b := Nat.mul_lt_mul_of_pos_left hab hinc
    omega
  · intro a ha b hb
    simp only [List.mem_filter, decide_eq_true_eq, List.mem_map] at ha hb
    obtain ⟨i, -, rfl⟩ := hb
    have := hn a ha.1 ha.2
    omega

end LB
