import Verif.Proofs.Renumber
import Verif.Proofs.Demo
import Verif.Props.Commands
/- What RENUM does to references between lines (C37). -/
namespace LB
open LB.Spec _root_.Spec

/-- C37.  If RENUM prints nothing, every line keeps its place, and its text is the old one with the references it finds
changed to the new numbers of the lines they referred to; nothing else changes.
Missing: it does not find all references, see the theorems `…_violated`; and that a number directly followed by
something that could continue it, like `1E1.5`, is treated in this way. -/
theorem C37_renum_partial {vm vm' : VM} {new old inc : Nat} (hs : Ascending ((lines vm).map (·.1))) (hnew : new < 2 ^ 32)
    (hl : ∀ l ∈ lines vm, l.1 < 2 ^ 32 ∧ Orderly vm.keywordsAnywhere l.2) (h : renumber vm new old inc = .ok vm') (hq : vm'.world = vm.world) :
    (lines vm').length = (lines vm).length ∧ ∀ (i : Nat) (n n' : Nat) (t t' : CStr), (lines vm)[i]? = some (n, t) → (lines vm')[i]? = some (n', t') →
      Retargeted vm.keywordsAnywhere (MovedTo vm vm') t t' := renumber_text hs hnew hl h hq

namespace Demo

/-- Can what follows not continue a number? -/
def numberEnds : CStr → Bool
  | [] => true
  | c :: _ => decide (Plain c) && !isdigit c && c != '.' && c != 'e' && c != 'E'

theorem numberEnds_spec {r : CStr} (h : numberEnds r = true) : NumberEnds r := by
  cases r with
  | nil => exact ⟨fun c hc => by simp at hc, fun c hc => by simp at hc⟩
  | cons c r =>
    simp only [numberEnds, Bool.and_eq_true, decide_eq_true_eq, Bool.not_eq_true', bne_iff_ne, ne_eq] at h
    obtain ⟨⟨⟨⟨h1, h2⟩, h3⟩, h4⟩, h5⟩ := h
    refine ⟨fun d hd => ?_, fun d hd => ?_⟩ <;> simp only [List.head?_cons, Option.some.injEq] at hd <;> subst hd
    · exact h1
    · exact ⟨fun hd => by rw [(isdigit_iff c).2 hd] at h2; simp at h2, h3, h4, h5⟩

/-- What follows the number at the beginning of a text, if there is one. -/
def afterNumber (kw : Bool) (s : CStr) : Option CStr :=
  match lexLine (newLex kw) 0 s with
  | .ok (.num, lex) => some (s.drop lex.pos)
  | _ => none

/-- Is the text one without numbers that run into something? -/
def orderly (kw : Bool) (s : CStr) : Bool :=
  s.all (fun c => decide (Plain c)) && (List.range (s.length + 1)).all fun i =>
    ((afterNumber kw (s.drop i)).map numberEnds).getD true

theorem orderly_spec {kw : Bool} {s : CStr} (h : orderly kw s = true) : Orderly kw s := by
  simp only [orderly, Bool.and_eq_true, List.all_eq_true, decide_eq_true_eq] at h
  refine ⟨h.1, ?_⟩
  rintro a b w r x rfl ⟨_, lex, h1, _, h3, _⟩
  have := h.2 a.length (by simp only [List.mem_range, List.length_append]; omega)
  rw [List.drop_left] at this
  simp only [afterNumber, h1, h3, List.drop_left, Option.map_some, Option.getD_some] at this
  exact numberEnds_spec this

/-- The lines before and after `RENUM 100`, if it prints nothing. -/
def renumbers (old new : List (Nat × CStr)) (s : Session) : Bool :=
  decide (lines s.vm = old) && old.all (fun l => orderly s.vm.keywordsAnywhere l.2) &&
  match renumber s.vm 100 0 10 with
  | .ok vm' => decide (lines vm' = new) && decide (vm'.world = s.vm.world)
  | .halt _ => false

end Demo

set_option maxRecDepth 100000 in
/-- The hypotheses of the claim are met by a program with references of several kinds, and two of its lines change. -/
example : ∃ s vm', Spec.Session s ∧
    lines s.vm = [(10, "IF A>1 THEN 30 ELSE 20".toList), (20, "PRINT \"GOTO 10\"; 20 : GOSUB  10".toList), (30, "GOTO 40".toList)] ∧
    renumber s.vm 100 0 10 = .ok vm' ∧ vm'.world = s.vm.world ∧
    (∀ l ∈ lines s.vm, l.1 < 2 ^ 32 ∧ Orderly s.vm.keywordsAnywhere l.2) ∧ Ascending ((lines s.vm).map (·.1)) ∧
    lines vm' = [(100, "IF A>1 THEN 120 ELSE 110".toList), (110, "PRINT \"GOTO 10\"; 20 : GOSUB  100".toList), (120, "GOTO 40".toList)] := by
  obtain ⟨s, hs, h⟩ := Demo.reached (c := Demo.ctx)
    (text := "10 IF A>1 THEN 30 ELSE 20\n20 PRINT \"GOTO 10\"; 20 : GOSUB  10\n30 GOTO 40\n")
    (P := Demo.renumbers
      [(10, "IF A>1 THEN 30 ELSE 20".toList), (20, "PRINT \"GOTO 10\"; 20 : GOSUB  10".toList), (30, "GOTO 40".toList)]
      [(100, "IF A>1 THEN 120 ELSE 110".toList), (110, "PRINT \"GOTO 10\"; 20 : GOSUB  100".toList), (120, "GOTO 40".toList)])
    (by decide +kernel)
  simp only [Demo.renumbers, Bool.and_eq_true, decide_eq_true_eq, List.all_eq_true] at h
  obtain ⟨⟨h1, h2⟩, h3⟩ := h
  split at h3
  · rename_i vm' hr
    simp only [Bool.and_eq_true, decide_eq_true_eq] at h3
    refine ⟨s, vm', hs, h1, hr, h3.2, ?_, ?_, h3.1⟩
    · intro l hl
      rw [h1] at hl
      refine ⟨?_, Demo.orderly_spec (h2 l hl)⟩
      simp only [List.mem_cons, List.not_mem_nil, or_false] at hl
      rcases hl with rfl | rfl | rfl <;> decide
    · rw [h1]
      decide
  · simp at h3

set_option maxRecDepth 100000 in
/-- C37 fails for `THEN GOTO`: the keyword behind THEN is taken for the number, and the number behind it is not looked at. -/
theorem C37_then_goto_violated : ∃ s s', Spec.Session s ∧
    lines s.vm = [(10, "IF A THEN GOTO 20".toList), (20, "PRINT \"B\"".toList)] ∧
    interpret Demo.ctx s "RENUM 100".toList = .ok s' ∧
    lines s'.vm = [(100, "IF A THEN GOTO 20".toList), (110, "PRINT \"B\"".toList)] := by
  obtain ⟨s, hs, h⟩ := Demo.reached (c := Demo.ctx) (text := "10 IF A THEN GOTO 20\n20 PRINT \"B\"\n")
    (P := fun s => lines s.vm == [(10, "IF A THEN GOTO 20".toList), (20, "PRINT \"B\"".toList)] &&
      match interpret Demo.ctx s "RENUM 100".toList with
      | .ok s' => lines s'.vm == [(100, "IF A THEN GOTO 20".toList), (110, "PRINT \"B\"".toList)]
      | .halt _ => false) (by decide +kernel)
  simp only [Bool.and_eq_true, beq_iff_eq] at h
  obtain ⟨h1, h2⟩ := h
  split at h2
  · rename_i s' hs'
    exact ⟨s, s', hs, h1, hs', by simpa using h2⟩
  · simp at h2

end LB
