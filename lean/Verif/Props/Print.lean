import Verif.Proofs.Print
import Verif.Proofs.Digits
import Verif.Proofs.Demo
/- C30: the print position. -/
namespace LB
open Spec

/-- C30.  Every PRINT item writes what it should and the print position follows the text. -/
theorem C30_item (env : Env) (vm : VM) (i : Inst) (t : CStr) (hat : At vm i) (hp : Prints vm.col i vm.stack vm.strstack t)
    (hc : vm.col < 4294967296) :
    ∃ vm', V.execute env vm = .ok () vm' ∧ vm'.world = { vm.world with out := vm.world.out ++ t } ∧
      vm'.col = columnAfter vm.col t % 4294967296 ∧ vm'.st = vm.st ∧ vm'.cs = following vm.cs := by
  rw [V.execute_at env hat]
  generalize hns : vm.stack = ns at hp
  generalize hss : vm.strstack = ss at hp
  cases hp with
  | ln =>
    simp only [V.exec, V.brk_apply, V.outCol, V.out, V.bind_apply, V.modify_apply]
    exact ⟨_, rfl, rfl, by simp [columnAfter], rfl, rfl⟩
  | @number x t ns ss hv ht =>
    rw [Dbl.fmtG_iff hv] at ht
    subst ht
    simp only [V.exec, V.brk_apply, V.printNum, V.outCol, V.out, V.bind_apply, V.pop, hns, V.get_apply, V.modify_apply]
    refine ⟨_, rfl, rfl, ?_, rfl, rfl⟩
    have : '\n' ∉ (' ' :: Dbl.fmtG x ++ [' ']) := by simp [V.fmtG_no_newline]
    simp only [columnAfter, this, if_false, u32]
  | @string s ns ss =>
    simp only [V.exec, V.brk_apply, V.printStr, V.outCol, V.out, V.bind_apply, V.popStr, hss, V.get_apply, V.modify_apply]
    exact ⟨_, rfl, rfl, V.colAfter_spec _ _ hc, rfl, rfl⟩
  | @spc x n ns ss hx =>
    simp only [V.exec, V.brk_apply, V.printSpc, V.outCol, V.out, V.bind_apply, V.popUnsigned_count hns hx, V.get_apply,
      V.modify_apply]
    exact ⟨_, rfl, rfl, by simp [columnAfter_replicate, u32], rfl, rfl⟩
  | @tabForward x n ns ss hx hn =>
    have h : ¬ n < vm.col := by omega
    simp only [V.exec, V.brk_apply, V.printTab, V.outCol, V.out, V.bind_apply, V.popUnsigned_count hns hx, V.get_apply,
      V.modify_apply, if_neg h]
    refine ⟨_, rfl, rfl, ?_, rfl, rfl⟩
    have := hx.2
    simp only [columnAfter_replicate]
    split <;> omega
  | @tabBack x n ns ss hx hn =>
    simp only [V.exec, V.brk_apply, V.printTab, V.outCol, V.out, V.bind_apply, V.popUnsigned_count hns hx, V.get_apply,
      V.modify_apply, if_pos hn]
    refine ⟨_, rfl, rfl, ?_, rfl, rfl⟩
    have := hx.2
    simp only [columnAfter_newline]
    split <;> omega
  | @comma k ns ss h1 h2 h3 =>
    simp only [V.exec, V.brk_apply, V.printComma, V.outCol, V.out, V.bind_apply, V.get_apply, V.modify_apply]
    rw [V.commaLoop_spec tabSize vm.col k (by omega) (by simp only [tabSize]; omega)]
    exact ⟨_, rfl, rfl, by simp [columnAfter_replicate], rfl, rfl⟩

/-- C30.  TAB(n) with n from 1 on leaves the print position at n, and writes at most one newline, only when the
position was beyond n. -/
theorem C30_tab (c n : Nat) (x : Dbl) (ns : List Dbl) (ss : List CStr) (t : CStr) (hx : IsCount x n) (hn : 1 ≤ n)
    (hp : Prints c .printTab (x :: ns) ss t) :
    columnAfter c t = n ∧ t.count '\n' ≤ 1 ∧ ('\n' ∈ t ↔ n < c) := by
  have hcount : ∀ k, (List.replicate k ' ').count '\n' = 0 := fun k => by simp [List.count_replicate]
  cases hp with
  | tabForward hy h =>
    have := V.isCount_unique hx hy
    subst this
    refine ⟨by rw [columnAfter_replicate]; omega, by rw [hcount]; omega, ?_⟩
    simp only [List.mem_replicate]
    constructor
    · rintro ⟨-, h⟩; exact absurd h (by decide)
    · omega
  | tabBack hy h =>
    have := V.isCount_unique hx hy
    subst this
    refine ⟨by rw [columnAfter_newline]; omega, by simp [hcount], by simp [h]⟩

/-- C30.  The comma leaves the print position at a column 1, 9, 17, … -/
theorem C30_comma (c : Nat) (ns : List Dbl) (ss : List CStr) (t : CStr) (hp : Prints c .printComma ns ss t) :
    ∃ k, 1 ≤ k ∧ k ≤ 8 ∧ t = List.replicate k ' ' ∧ columnAfter c t = c + k ∧ columnAfter c t % 8 = 1 := by
  cases hp with
  | @comma k _ _ h1 h2 h3 => exact ⟨k, h1, h2, rfl, columnAfter_replicate _ _, by rw [columnAfter_replicate]; exact h3⟩

/-- C30.  Along any run, the print position is one more than the number of characters written since the last
newline (modulo 2^32, the range of the counter), whatever other statements are executed in between. -/
theorem C30_run (env : Env) (vm vm' : VM) (is : List Inst) (hrun : Runs env vm is vm')
    (hother : ∀ i ∈ is, ¬ OtherOutput i) (ht1 : vm.traceFor = false) (ht2 : vm.traceBasic = false)
    (hc : vm.col < 4294967296) :
    ∃ t, vm'.world.out = vm.world.out ++ t ∧ vm'.col = columnAfter vm.col t % 4294967296 := by
  have step : ∀ (a : VM) (i : Inst) (a' : VM), At a i → V.execute env a = .ok () a' → ¬ OtherOutput i →
      a.traceFor = false → a.traceBasic = false → a.col < 4294967296 →
      ∃ t, a'.world.out = a.world.out ++ t ∧ a'.col = columnAfter a.col t % 4294967296 := by
    intro a i a' hat hx hno h1 h2 hcol
    have same : a'.world.out = a.world.out → a'.col = a.col →
        ∃ t, a'.world.out = a.world.out ++ t ∧ a'.col = columnAfter a.col t % 4294967296 := by
      intro e1 e2
      exact ⟨[], by rw [e1, List.append_nil], by rw [columnAfter_nil, e2]; omega⟩
    have prints : ∀ t, Prints a.col i a.stack a.strstack t →
        ∃ t, a'.world.out = a.world.out ++ t ∧ a'.col = columnAfter a.col t % 4294967296 := by
      intro t hp
      obtain ⟨b, hb, e1, e2, -⟩ := C30_item env a i t hat hp hcol
      rw [hb] at hx; cases hx
      exact ⟨t, by rw [e1], e2⟩
    have noStack : ∀ x : Dbl, ∀ r, a.stack = x :: r → (∀ n, ¬ IsCount x n) → i = .printSpc ∨ i = .printTab → False := by
      intro x r hs hn hi
      obtain ⟨e, he, h⟩ := V.popUnsigned_other hs hn
      rcases hi with rfl | rfl <;> rw [V.execute_at env hat] at hx <;>
        simp only [V.exec, V.brk_apply, V.printSpc, V.printTab, V.bind_apply, h] at hx <;> cases hx
    have emptyStack : a.stack = [] → i = .printSpc ∨ i = .printTab ∨ i = .printNum → False := by
      intro hs hi
      rcases hi with rfl | rfl | rfl <;> rw [V.execute_at env hat] at hx <;>
        simp only [V.exec, V.brk_apply, V.printSpc, V.printTab, V.printNum, V.bind_apply, V.popUnsigned, V.pop, hs] at hx <;>
        cases hx
    by_cases htouch : V.touches i .io = false
    · have := V.keeps_exec (V.closed_io a.world a.col) env i
        (by rintro x hx rfl; rw [hx] at htouch; cases htouch) a (by simp only [h1, h2])
      rw [V.execute_at env hat] at hx
      cases he : V.exec env i a with
      | ok f b =>
        rw [he] at hx this
        simp only [Prod.mk.injEq] at this
        cases f <;> (cases hx; exact same (by simp only [this.1]) (by simp only [this.2.1]))
      | err e b => rw [he] at hx; cases hx
      | halt h => rw [he] at hx; cases hx
    · cases i with
      | printLn => exact prints _ .ln
      | printNum =>
        cases hs : a.stack with
        | nil => exact (emptyStack hs (by simp)).elim
        | cons x r =>
          rw [V.execute_at env hat] at hx
          simp only [V.exec, V.brk_apply, V.printNum, V.outCol, V.out, V.bind_apply, V.pop, hs, V.get_apply, V.modify_apply] at hx
          cases hx
          have : '\n' ∉ (' ' :: Dbl.fmtG x ++ [' ']) := by simp [V.fmtG_no_newline]
          exact ⟨_, rfl, by simp only [columnAfter, this, if_false, u32]⟩
      | printStr =>
        cases hs : a.strstack with
        | nil =>
          rw [V.execute_at env hat] at hx
          simp only [V.exec, V.brk_apply, V.printStr, V.bind_apply, V.popStr, hs] at hx
          cases hx
        | cons x r => exact prints _ (by rw [hs]; exact .string)
      | printSpc =>
        cases hs : a.stack with
        | nil => exact (emptyStack hs (by simp)).elim
        | cons x r =>
          by_cases hn : ∃ n, IsCount x n
          · obtain ⟨n, hn⟩ := hn; exact prints _ (by rw [hs]; exact .spc hn)
          · exact (noStack x r hs (fun n h => hn ⟨n, h⟩) (by simp)).elim
      | printTab =>
        cases hs : a.stack with
        | nil => exact (emptyStack hs (by simp)).elim
        | cons x r =>
          by_cases hn : ∃ n, IsCount x n
          · obtain ⟨n, hn⟩ := hn
            by_cases hlt : n < a.col
            · exact prints _ (by rw [hs]; exact .tabBack hn hlt)
            · exact prints _ (by rw [hs]; exact .tabForward hn (by omega))
          · exact (noStack x r hs (fun n h => hn ⟨n, h⟩) (by simp)).elim
      | printComma => exact prints _ (.comma (k := (8 - a.col % 8) % 8 + 1) (by omega) (by omega) (by omega))
      | for_ id =>
        rw [V.execute_at env hat] at hx
        simp only [V.exec, V.brk_apply] at hx
        cases he : V.forStatement id a with
        | ok u b =>
          rw [he] at hx
          cases hx
          obtain ⟨e1, e2⟩ := V.forStatement_quiet h1 he
          exact same (by simp only [e1]) e2
        | err e b => rw [he] at hx; cases hx
        | halt h => rw [he] at hx; cases hx
      | rand =>
        rw [V.execute_at env hat] at hx
        simp only [V.exec, V.brk_apply, V.bind_apply, V.readClock, V.get_apply, V.modify_apply, V.pure_apply] at hx
        cases hx
        exact same rfl rfl
      | seed =>
        rw [V.execute_at env hat] at hx
        cases hs : a.stack with
        | nil => simp only [V.exec, V.brk_apply, V.bind_apply, V.popUnsigned, V.pop, hs] at hx; cases hx
        | cons x r =>
          by_cases hn : ∃ n, IsCount x n
          · obtain ⟨n, hn⟩ := hn
            simp only [V.exec, V.brk_apply, V.bind_apply, V.popUnsigned_count hs hn, V.modify_apply] at hx
            cases hx
            exact same rfl rfl
          · obtain ⟨e, he, h⟩ := V.popUnsigned_other hs (fun n h => hn ⟨n, h⟩)
            simp only [V.exec, V.brk_apply, V.bind_apply, h] at hx
            cases hx
      | bi b =>
        cases b with
        | rnd =>
          rw [V.execute_at env hat] at hx
          simp only [V.exec, V.rndStep, V.bind_apply, V.get_apply, V.modify_apply, V.ite_apply, V.pure_apply, V.brk_apply,
            V.push] at hx
          by_cases hle : Dbl.le (.fin 1) (Dbl.div (Dbl.ofInt (env.rand a.world.rng).1) (Dbl.ofInt env.randMax)) = true
          · simp only [hle, if_true] at hx
            cases hx
            exact same rfl rfl
          · simp only [hle] at hx
            by_cases hr : a.stack.length ≥ maxNumStack
            · simp only [hr, if_true] at hx; cases hx
            · simp only [hr, if_false] at hx
              cases hx
              exact same rfl rfl
        | timeStr =>
          rw [V.execute_at env hat] at hx
          simp only [V.exec, V.brk_apply, V.builtinOp, V.bind_apply, V.readClock, V.get_apply, V.modify_apply, V.pure_apply,
            V.pushStr] at hx
          by_cases hr : a.strstack.length ≥ maxStrStack
          · simp only [hr, if_true] at hx; cases hx
          · simp only [hr, if_false] at hx
            cases hx
            exact same rfl rfl
        | _ => exact absurd rfl htouch
      | inputBuf p => exact absurd trivial hno
      | inputEnd => exact absurd trivial hno
      | inputSep => exact absurd trivial hno
      | inputNum id n => exact absurd trivial hno
      | cls => exact absurd trivial hno
      | _ => exact absurd rfl htouch
  induction hrun with
  | nil vm => exact ⟨[], by simp, by rw [columnAfter_nil]; omega⟩
  | @step a i a' js b hat hx hrest ih =>
    have hfix := V.keeps_execute (V.closed_fixed (fun _ _ _ _ t f _ => (t, f)) (a.traceBasic, a.traceFor)) env a rfl
    rw [hx] at hfix
    obtain ⟨f1, f2⟩ := Prod.mk.inj hfix
    obtain ⟨t, e1, e2⟩ := step a i a' hat hx (hother i (by simp)) ht1 ht2 hc
    obtain ⟨u, e3, e4⟩ := ih (fun j hj => hother j (by simp [hj])) (f2.trans ht1) (f1.trans ht2) (by rw [e2]; omega)
    refine ⟨t ++ u, by rw [e3, e1, List.append_assoc], ?_⟩
    rw [e4, e2, columnAfter_append, columnAfter_mod]

private def printDemo : VM := { Demo.machine [.printTab, .printComma, .printLn] [] with stack := [.fin 3], col := 7 }
example : At printDemo .printTab ∧ Prints printDemo.col .printTab printDemo.stack printDemo.strstack "\n  ".toList ∧
    printDemo.traceFor = false ∧ printDemo.traceBasic = false :=
  ⟨⟨.stored, _, rfl, rfl, rfl⟩, .tabBack (n := 3) ⟨.inl rfl, by decide⟩ (by decide), rfl, rfl⟩

set_option maxRecDepth 100000 in
example : Demo.shows "PRINT 1,\"AB\";TAB(3);\"C\";SPC(2);\"D\"\n" = .ok ">  1      AB\n  C  D\n".toList := by decide +kernel

end LB
