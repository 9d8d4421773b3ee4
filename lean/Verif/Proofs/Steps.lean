import Verif.Proofs.Asking
import Verif.Proofs.Elements
import Verif.Proofs.Defines
/- Running a program statement by statement. -/
namespace LB
open LB.Spec _root_.Spec

section
variable {env : Env} {I : Image} {c : Src.Config} {vm : VM} {ss : List Src.Stmt} {tail : List Inst}

theorem perform_mimics (hI : I.Ok) (h : Midst I c vm) (h1 : vm.stack = []) (h2 : vm.strstack = []) (ht : Tail I c.place ss tail) {s : Src.Stmt} {cd : List Inst}
    (hs : ss[c.place.2]? = some s) (hc : StmtCode I.st s cd) (hk : I.code.drop vm.cs.pc = cd ++ tail) :
    Mimics env I (Src.after ss c.place) vm (Src.perform env I.prog ss c s) := by
  obtain ⟨n, hline⟩ := ht.line
  have hfit := hI.fits _ (List.mem_of_getElem? hline) s (List.mem_of_getElem? hs)
  cases hc with
  | letNum he hv => rw [List.append_assoc] at hk; exact letNum_mimics hI h h1 h2 ht he hv hfit hk
  | letStr he hv => rw [List.append_assoc] at hk; exact letStr_mimics hI h h1 h2 ht he hv hfit hk
  | letElem hi he hv l1 l2 l3 => simp only [List.append_assoc] at hk; exact letElem_mimics hI h h1 h2 ht hi he hv l1 l2 l3 hfit hk
  | dim hi hv l1 l2 l3 => rw [List.append_assoc] at hk; exact dim_mimics hI h h1 h2 ht hi hv l1 l2 l3 hfit hk
  | readElem hi hv l1 l2 l3 => rw [List.append_assoc] at hk; exact readElem_mimics hI h h1 h2 ht hi hv l1 l2 l3 hfit hk
  | def_ hv hp he _ =>
    simp only [List.cons_append, List.append_assoc, List.nil_append] at hk
    exact def_mimics hI h h1 h2 ht hv hp he (room_ge (List.mem_of_getElem? hline) (List.mem_of_getElem? hs)) hk
  | print he => rw [List.append_assoc] at hk; exact print_mimics hI h h1 h2 ht he hfit hk
  | goto => exact goto_mimics hI h h1 h2 hk
  | gosub => exact gosub_mimics hI h h1 h2 ht hk
  | ret => exact ret_mimics hI h h1 h2 hk
  | ifGoto he => rw [List.append_assoc] at hk; exact ifGoto_mimics hI h h1 h2 ht he hfit hk
  | ifThen he => rw [List.append_assoc] at hk; exact ifThen_mimics hI h h1 h2 ht he hfit hk
  | ifElse he => rw [List.append_assoc] at hk; exact ifElse_mimics hI h h1 h2 ht (hI.elses _ (List.mem_of_getElem? hline) _ _ hs) he hfit hk
  | else_ => exact else_mimics hI h h1 h2 ht hk
  | for_ ha hb hst hv => simp only [List.append_assoc] at hk; exact for_mimics hI h h1 h2 ht ha hb hst hv hfit hk
  | next hv => exact next_mimics hI h h1 h2 ht hv hk
  | nextAny => exact nextAny_mimics hI h h1 h2 ht hk
  | end_ => exact end_mimics hI h hk
  | stop => exact stop_mimics hI h h1 h2 ht hk
  | on he => simp only [List.append_assoc, List.cons_append] at hk; exact on_mimics hI h h1 h2 ht he hfit hk
  | data => exact data_mimics hI ht h h1 h2 hk
  | readNum hv => exact readNum_mimics hI h h1 h2 ht hv hk
  | readStr hv => exact readStr_mimics hI h h1 h2 ht hv hk
  | restore => exact restore_mimics hI h h1 h2 ht hk
  | restoreLine => exact restoreLine_mimics hI h h1 h2 ht hk
  | input hc => exact input_mimics hI h h1 h2 ht hs hc hfit hk
  | lineInputElem hi hv l1 l2 => simp only [List.cons_append, List.append_assoc] at hk; exact lineInputElem_mimics hI h h1 h2 ht hi hv l1 l2 hfit hk
  | lineInput hv => exact lineInput_mimics hI h h1 h2 ht hv hk
  | cls => exact cls_mimics hI h h1 h2 ht hk
  | clear => exact clear_mimics hI h h1 h2 ht hk
  | randomize => exact randomize_mimics hI h h1 h2 ht hk
  | seed he => rw [List.append_assoc] at hk; exact seed_mimics hI h h1 h2 ht he hfit hk

/-- How many statements of the line are left, when the line has been entered. -/
def rank (prog : Src.Program) (p : Src.Place) : Nat := if p.2 = 0 then 0 else (prog[p.1]?.elim 0 (fun l => l.2.length)) - p.2

/-- The machine does what the program does; if it does nothing, the program comes closer to the end of the line. -/
def Advances (env : Env) (I : Image) (c : Src.Config) (vm : VM) : Src.Next → Prop
  | .go c' => ∃ n vm', Travels env vm n vm' ∧ Matches I c' vm' ∧ (n = 0 → rank I.prog c'.place < rank I.prog c.place)
  | .stop e c' => ∀ q, Mimics env I q vm (.stop e c')

theorem Mimics.advances {r : Src.Next} (h : Mimics env I (Src.after ss c.place) vm r) {n : Nat} (hp : I.prog[c.place.1]? = some (n, ss)) (h0 : c.place.2 ≠ 0)
    (hl : c.place.2 < ss.length) : Advances env I c vm r := by
  cases r with
  | go c' =>
    obtain ⟨k, vm', m1, m2, m3⟩ := h
    refine ⟨k, vm', m1, m2, fun hk => ?_⟩
    rw [m3 hk]
    simp only [rank, if_neg h0, hp, Option.elim, Src.after]
    split
    · rename_i h; simp only [hp]; split <;> omega
    · simp only [if_true]; omega
  | stop e c' => intro q; cases e <;> exact h

theorem Mimics.advances_after {r : Src.Next} {q : Src.Place} {u : VM} {n : Nat} (h : Mimics env I q u r) (ht : Travels env vm n u) (hn : n ≠ 0) : Advances env I c vm r := by
  cases r with
  | go c' =>
    obtain ⟨k, vm', m1, m2, m3⟩ := h
    exact ⟨n + k, vm', ht.trans m1, m2, fun hk => absurd hk (by omega)⟩
  | stop e c' =>
    intro q
    have := Mimics.after ht h
    cases e <;> exact this

/-- What does not depend on where the program would go without a step of the machine takes a step. -/
theorem Mimics.advances_any {r : Src.Next} (h : ∀ q, Mimics env I q vm r) : Advances env I c vm r := by
  cases r with
  | go c' =>
    obtain ⟨k, vm', m1, m2, m3⟩ := h (c'.place.1 + 1, 0)
    refine ⟨k, vm', m1, m2, fun hk => ?_⟩
    have := congrArg Prod.fst (m3 hk)
    simp at this
  | stop e c' => exact h

theorem step_advances (hI : I.Ok) (h : Matches I c vm) : Advances env I c vm (Src.step env I.prog c) := by
  rcases h.place with ⟨hcode, hst, hline⟩ | ⟨hcode, hline, ss, tail, prompt, vs, cd, ht, hs, hc, hk⟩
  case inr =>
    obtain ⟨n, hl⟩ := ht.line
    simp only [Src.step, hl, hs]
    exact Mimics.advances_any fun q => input_mimics hI ⟨h.base, hcode, hline, h.going⟩ h.stack h.strstack ht hs hc (hI.fits _ (List.mem_of_getElem? ht.line.choose_spec) _ (List.mem_of_getElem? hs)) hk
  rw [Nat.add_zero] at hst
  generalize hp : c.place = p at hst hline ⊢
  obtain ⟨i, j⟩ := p
  simp only [Src.step, hp]
  simp only [Stands] at hst
  by_cases hj : j = 0
  · subst hj
    rw [if_pos rfl] at hst
    cases hl : I.prog[i]? with
    | none =>
      intro q
      have hd : I.prog.drop i = [] := List.drop_eq_nil_of_le (List.getElem?_eq_none_iff.1 hl)
      rw [hd] at hst
      refine ⟨0, vm, .here, h.base, h.going, hcode, ?_⟩
      generalize hcd : I.code.drop vm.cs.pc = cd at hst
      cases hst
      exact List.drop_eq_nil_iff.1 hcd
    | some l =>
      obtain ⟨n, ss⟩ := l
      have hd : I.prog.drop i = (n, ss) :: I.prog.drop (i + 1) := by
        obtain ⟨hlt, he⟩ := List.getElem?_eq_some_iff.1 hl
        rw [List.drop_eq_getElem_cons hlt, he]
      rw [hd] at hst
      generalize hcd : I.code.drop vm.cs.pc = cd at hst
      cases hst with
      | @cons _ _ _ _ cs d hc hrest =>
        have hx : V.execute env vm = .ok () { vm with cs := { vm.cs with sourceLine := i, pc := vm.cs.pc + 1 } } := by
          rw [V.execute_at env (h.base.at_inst hI hcode hcd)]
          simp only [V.exec, V.brk_apply, V.sourceLineInst, V.bind_apply, V.get_apply, V.modify_apply, h.base.traceBasic, V.when_, Bool.false_eq_true, if_false, V.pure_apply, following]
        have htr := Travels.one h.going hx
        have hcd' : I.code.drop (vm.cs.pc + 1) = cs ++ d := drop_next hcd
        cases ss with
        | nil =>
          cases hc
          refine ⟨1, _, htr, Matches.start (i := i + 1) (h.base.move (p := (i + 1, 0))) rfl h.stack h.strstack hcode h.going ?_, fun h => absurd h (by decide)⟩
          simp only [Stands, if_true]
          rw [hcd']
          exact hrest
        | cons s ss =>
          cases hc with
          | @cons _ _ c1 c2 hs hss =>
            rw [List.append_assoc] at hcd'
            have hm : Midst I c { vm with cs := { vm.cs with sourceLine := i, pc := vm.cs.pc + 1 } } := ⟨h.base.move (p := c.place), hcode, by rw [hp], h.going⟩
            refine (perform_mimics hI hm h.stack h.strstack (ss := s :: ss) (tail := c2 ++ d) ⟨⟨n, by rw [hp]; exact hl⟩, c2, d, by rw [hp]; exact hss, by rw [hp]; exact hrest, rfl⟩
              (by rw [hp]; rfl) hs hcd').advances_after htr (by decide)
  · rw [if_neg hj] at hst
    obtain ⟨n, ss, cs, d, h1, h2, h3, h4, h5⟩ := hst
    rw [h1]
    obtain ⟨s, hs⟩ : ∃ s, ss[j]? = some s := ⟨_, List.getElem?_eq_getElem h2⟩
    simp only [hs]
    rw [List.drop_eq_getElem_cons h2, (List.getElem?_eq_some_iff.1 hs).2] at h3
    cases h3 with
    | @cons _ _ c1 c2 hs' hss =>
      rw [List.append_assoc] at h5
      have hm : Midst I c vm := ⟨h.base, hcode, by rw [hp]; exact hline hj, h.going⟩
      refine (perform_mimics hI hm h.stack h.strstack (ss := ss) (tail := c2 ++ d) ⟨⟨n, by rw [hp]; exact h1⟩, c2, d, by rw [hp]; exact hss, by rw [hp]; exact h4, rfl⟩
        (by rw [hp]; exact hs) hs' h5).advances (n := n) (by rw [hp]; exact h1) (by rw [hp]; exact hj) (by rw [hp]; exact h2)

/-- Several statements. -/
theorem steps_mimic (hI : I.Ok) : ∀ (k : Nat) {c : Src.Config} {vm : VM}, Matches I c vm →
    (∀ c', Src.steps env I.prog k c = .go c' → ∃ n vm', Travels env vm n vm' ∧ Matches I c' vm') ∧
    (∀ e c', Src.steps env I.prog k c = .stop e c' → ∀ q, Mimics env I q vm (.stop e c')) := by
  intro k
  induction k with
  | zero => intro c vm h; exact ⟨fun c' hc => by cases hc; exact ⟨0, vm, .here, h⟩, fun e c' hc => by cases hc⟩
  | succ k ih =>
    intro c vm h
    have hs := step_advances (env := env) hI h
    simp only [Src.steps]
    cases hr : Src.step env I.prog c with
    | stop e c' =>
      rw [hr] at hs
      refine ⟨fun c'' hc => (by cases hc), fun e' c'' hc => ?_⟩
      cases hc
      exact hs
    | go c1 =>
      rw [hr] at hs
      obtain ⟨n, vm', m1, m2, _⟩ := hs
      obtain ⟨k1, k2⟩ := ih m2
      refine ⟨fun c'' hc => ?_, fun e' c'' hc q => Mimics.after m1 (k2 e' c'' hc q)⟩
      obtain ⟨n', vm'', q1, q2⟩ := k1 c'' hc
      exact ⟨n + n', vm'', m1.trans q1, q2⟩

/-- A program that goes on for ever keeps the machine busy. -/
theorem steps_busy (hI : I.Ok) : ∀ (r : Nat) {c : Src.Config} {vm : VM}, Matches I c vm → rank I.prog c.place ≤ r →
    (∀ k, ∃ c', Src.steps env I.prog k c = .go c') → ∃ n c' vm', n ≠ 0 ∧ Travels env vm n vm' ∧ Matches I c' vm' ∧ ∀ k, ∃ c'', Src.steps env I.prog k c' = .go c'' := by
  intro r
  induction r with
  | zero =>
    intro c vm h hr hall
    have hs := step_advances (env := env) hI h
    cases hst : Src.step env I.prog c with
    | stop e c' => obtain ⟨c', hc⟩ := hall 1; simp [Src.steps, hst] at hc
    | go c1 =>
      rw [hst] at hs
      obtain ⟨n, vm', m1, m2, m3⟩ := hs
      refine ⟨n, c1, vm', fun hn => by have := m3 hn; omega, m1, m2, fun k => ?_⟩
      obtain ⟨c', hc⟩ := hall (k + 1)
      exact ⟨c', by simpa only [Src.steps, hst] using hc⟩
  | succ r ih =>
    intro c vm h hr hall
    have hs := step_advances (env := env) hI h
    cases hst : Src.step env I.prog c with
    | stop e c' => obtain ⟨c', hc⟩ := hall 1; simp [Src.steps, hst] at hc
    | go c1 =>
      rw [hst] at hs
      obtain ⟨n, vm', m1, m2, m3⟩ := hs
      have hall' : ∀ k, ∃ c', Src.steps env I.prog k c1 = .go c' := by
        intro k
        obtain ⟨c', hc⟩ := hall (k + 1)
        exact ⟨c', by simpa only [Src.steps, hst] using hc⟩
      by_cases hn : n = 0
      · subst hn
        cases m1
        exact ih m2 (by have := m3 rfl; omega) hall'
      · exact ⟨n, c1, vm', hn, m1, m2, hall'⟩

theorem steps_forever (hI : I.Ok) : ∀ (n : Nat) {c : Src.Config} {vm : VM}, Matches I c vm → (∀ k, ∃ c', Src.steps env I.prog k c = .go c') →
    ∃ m vm', n ≤ m ∧ Travels env vm m vm' := by
  intro n
  induction n with
  | zero => intro c vm h _; exact ⟨0, vm, Nat.le_refl _, .here⟩
  | succ n ih =>
    intro c vm h hall
    obtain ⟨m, c', vm', h0, m1, m2, m3⟩ := steps_busy hI _ h (Nat.le_refl _) hall
    obtain ⟨m', vm'', q1, q2⟩ := ih m2 m3
    exact ⟨m + m', vm'', by omega, m1.trans q2⟩

end
end LB
