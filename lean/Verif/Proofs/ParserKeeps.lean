import Verif.Model.Parser
import Verif.Proofs.LexNum
/- Invariants kept by the whole compiler, from its primitive changes. -/
namespace LB
namespace P

@[simp] theorem bind_apply {α β} (x : P α) (f : α → P β) (p : Parser) :
    (x >>= f) p = match x p with
      | .ok a p' => f a p'
      | .err m p' => .err m p'
      | .halt h => .halt h := rfl

@[simp] theorem pure_apply {α} (a : α) (p : Parser) : (pure a : P α) p = .ok a p := rfl

@[simp] theorem ite_apply {α} (c : Prop) [Decidable c] (x y : P α) (p : Parser) :
    (if c then x else y) p = if c then x p else y p := by split <;> rfl

/-- The state left by a result satisfies `I`. -/
def _root_.LB.PRes.All {α} (I : Parser → Prop) : PRes α → Prop
  | .ok _ p => I p
  | .err _ p => I p
  | .halt _ => True

/-- `x` keeps `I` whether it succeeds or fails. -/
def Keeps {α} (I : Parser → Prop) (x : P α) : Prop := ∀ p, I p → (x p).All I

namespace Keeps
variable {I : Parser → Prop} {α β : Type}

theorem bind {x : P α} {f : α → P β} (hx : Keeps I x) (hf : ∀ a, Keeps I (f a)) : Keeps I (x >>= f) := by
  intro p h
  have h1 := hx p h
  simp only [bind_apply]
  cases hxp : x p with
  | ok a p' => rw [hxp] at h1; exact hf a p' h1
  | err m p' => rw [hxp] at h1; exact h1
  | halt h => trivial

theorem pure (a : α) : Keeps I (pure a : P α) := fun _ h => h
theorem fail (m : String) : Keeps I (P.fail m : P α) := fun _ h => h
theorem assertFail (m : String) : Keeps I (P.assertFail m : P α) := fun _ _ => trivial
theorem outOfFuel : Keeps I (P.outOfFuel : P α) := fun _ _ => trivial
theorem token : Keeps I P.token := fun _ h => h
theorem word : Keeps I P.word := fun _ h => h
theorem num : Keeps I P.num := fun _ h => h
theorem here : Keeps I P.here := fun _ h => h
theorem getIfThen : Keeps I P.getIfThen := fun _ h => h
theorem latest : Keeps I P.latest := fun _ h => h
theorem lookup (n : CStr) (b : Bool) : Keeps I (P.lookup n b) := fun _ h => h
theorem fuel : Keeps I P.fuel := fun _ h => h
theorem sym (q : Nat) : Keeps I (P.sym q) := by
  intro p h; simp only [P.sym]; split
  · exact h
  · trivial
theorem eos : Keeps I P.eos := bind token (fun _ => pure _)
theorem ite {c : Prop} [Decidable c] {x y : P α} (hx : Keeps I x) (hy : Keeps I y) :
    Keeps I (if c then x else y) := by split <;> assumption

end Keeps

/-- Goes through the statements of a parsing function. -/
macro "pkeeps" : tactic => `(tactic| with_reducible repeat' (first
  | apply Keeps.pure | apply Keeps.fail | apply Keeps.assertFail | apply Keeps.outOfFuel | apply Keeps.token
  | apply Keeps.word | apply Keeps.num | apply Keeps.here | apply Keeps.getIfThen | apply Keeps.latest
  | apply Keeps.fuel | apply Keeps.sym | apply Keeps.eos
  | assumption
  | apply Keeps.bind | apply Keeps.ite | intro _ | split))

/-- Instructions that overwrite others (Basic/parse.c:404, 508). -/
def Patch : Inst → Prop
  | .ifElse => True
  | .onGoto _ => True
  | .onGosub _ => True
  | _ => False

/-- A text in an instruction fits the word of the lexer; a number is a double. -/
def ShortText : Inst → Prop
  | .pushStr w => w.length < maxWord
  | .data w => w.length < maxWord
  | .pushNum x => Spec.Valid x
  | _ => True

/-- `I` is kept by the primitive changes that the compiler makes. -/
structure Closed (I : Parser → Prop) : Prop where
  lex : ∀ p lex, I p → lex.Sound → I { p with lex := lex }
  fits : ∀ p, I p → p.lex.Sound
  emit : ∀ i, ShortText i → Keeps I (emit i)
  patch : ∀ n i, Patch i → Keeps I (patch n i)
  ifThen : ∀ p n, I p → I { p with ifThen := n }
  resolve : ∀ name params kind, kind = .unknown ∨ kind = .array → Keeps I (resolve name params kind)
  defSymbol : ∀ name, Keeps I (defSymbol name (if stringName name then .str else .num))

variable {I : Parser → Prop} (h : Closed I)
include h

theorem keeps_next : Keeps I next := by
  intro p hp; simp only [next]; split
  · trivial
  · rename_i hl; exact h.lex p _ hp (lexNext_sound hl (h.fits p hp))
theorem keeps_nextData_bind {α} {f : CStr → P α} (hf : ∀ w, w.length < maxWord → Keeps I (f w)) : Keeps I (nextData >>= f) := by
  intro p hp; simp only [bind_apply, nextData]
  cases hl : lexNextData p.lex with
  | halt => trivial
  | ok r => exact hf _ (lexNextData_fits hl).2 _ (h.lex p _ hp ⟨(lexNextData_fits hl).1, lexNextData_number hl ▸ (h.fits p hp).num⟩)
theorem keeps_word_bind {α} {f : CStr → P α} (hf : ∀ w, w.length < maxWord → Keeps I (f w)) : Keeps I (P.word >>= f) := by
  intro p hp; exact hf _ (h.fits p hp).fits p hp
theorem keeps_num_bind {α} {f : Dbl → P α} (hf : ∀ x, Spec.Valid x → Keeps I (f x)) : Keeps I (P.num >>= f) := by
  intro p hp; exact hf _ (h.fits p hp).num p hp
theorem keeps_setIfThen (n : Nat) : Keeps I (setIfThen n) := fun p hp => h.ifThen p n hp
theorem keeps_startLine (n : Nat) (t : CStr) : Keeps I (startLine n t) := by
  intro p hp; simp only [startLine]; split
  · trivial
  · rename_i hl; exact h.lex p _ hp (lexNext_sound hl ⟨(h.fits p hp).fits, (h.fits p hp).num⟩)
theorem keeps_remStatement : Keeps I remStatement := fun p hp => h.lex p _ hp ⟨(h.fits p hp).fits, (h.fits p hp).num⟩

omit h in
theorem keeps_matchTok (h : Closed I) (t : Tok) : Keeps I (matchTok t) := by
  unfold matchTok; pkeeps; exact keeps_next h

omit h in
theorem keeps_lineNumber (h : Closed I) : Keeps I lineNumber := by
  unfold lineNumber; pkeeps; exact keeps_next h

omit h
/-- `pkeeps` with the primitive changes. -/
macro "pkept" h:ident : tactic => `(tactic| (pkeeps <;> with_reducible first
  | exact keeps_next $h | (refine ($h).emit _ ?_; (with_unfolding_all exact trivial); done) | exact keeps_matchTok $h _ | exact keeps_lineNumber $h
  | exact keeps_setIfThen $h _
  | skip))

section Expr
variable {expr : P Ty} (he : Keeps I expr)

theorem keeps_numericExpression (he : Keeps I expr) : Keeps I (numericExpression expr) := by
  unfold numericExpression; pkeeps
theorem keeps_stringExpression (he : Keeps I expr) : Keeps I (stringExpression expr) := by
  unfold stringExpression; pkeeps
theorem keeps_discardExpression (h : Closed I) (he : Keeps I expr) : Keeps I (discardExpression expr) := by
  unfold discardExpression; pkept h
theorem keeps_builtinArg (he : Keeps I expr) (c : Char) : Keeps I (builtinArg expr c) := by
  unfold builtinArg; pkeeps
  · exact keeps_numericExpression he
  · exact keeps_stringExpression he
theorem keeps_builtinArgs (h : Closed I) (he : Keeps I expr) (cs : List Char) : Keeps I (builtinArgs expr cs) := by
  induction cs with
  | nil => exact Keeps.pure _
  | cons c cs ih => unfold builtinArgs; pkept h; exact keeps_builtinArg he c
theorem keeps_subscripts (h : Closed I) (he : Keeps I expr) (n count : Nat) : Keeps I (subscripts expr n count) := by
  induction n generalizing count with
  | zero => exact Keeps.outOfFuel
  | succ n ih =>
    unfold subscripts; pkept h
    · exact keeps_numericExpression he
    · exact ih _
theorem keeps_identifier (h : Closed I) (he : Keeps I expr) {kind : SymKind} (hk : kind = .unknown ∨ kind = .array) :
    Keeps I (identifier expr kind) := by
  unfold identifier; pkept h
  · exact keeps_subscripts h he _ _
  · exact h.resolve _ _ _ hk
  · exact h.resolve _ _ _ hk
theorem keeps_simpleVariable (h : Closed I) (he : Keeps I expr) : Keeps I (simpleVariable expr) := by
  unfold simpleVariable; pkept h; exact keeps_identifier h he (.inl rfl)
theorem keeps_numericSimpleVariable (h : Closed I) (he : Keeps I expr) : Keeps I (numericSimpleVariable expr) := by
  unfold numericSimpleVariable; pkept h; exact keeps_simpleVariable h he
theorem keeps_builtinCall (h : Closed I) (he : Keeps I expr) (args : List Char) : Keeps I (builtinCall expr args) := by
  unfold builtinCall; pkept h
  · exact keeps_discardExpression h he
  · exact keeps_builtinArg he _
  · exact keeps_builtinArgs h he _
theorem keeps_builtinPrimary (h : Closed I) (he : Keeps I expr) (b : Builtin) : Keeps I (builtinPrimary expr b) := by
  unfold builtinPrimary; pkept h; exact keeps_builtinCall h he _
theorem keeps_namePrimary (h : Closed I) (he : Keeps I expr) : Keeps I (namePrimary expr) := by
  unfold namePrimary; pkept h
  exact keeps_identifier h he (.inl rfl)
theorem keeps_primaryExpression (h : Closed I) (he : Keeps I expr) : Keeps I (primaryExpression expr) := by
  have hw : Keeps I (do let w ← P.word; emit (.pushStr w); let _ ← next; pure Ty.str : P Ty) := by
    refine keeps_word_bind h (fun w hl => ?_)
    refine Keeps.bind (h.emit (.pushStr w) hl) (fun _ => ?_)
    pkept h
  have hn : Keeps I (do let x ← P.num; emit (.pushNum x); let _ ← next; pure Ty.num : P Ty) := by
    refine keeps_num_bind h (fun x hx => ?_)
    refine Keeps.bind (h.emit (.pushNum x) hx) (fun _ => ?_)
    pkept h
  unfold primaryExpression; pkept h
  · exact keeps_builtinPrimary h he _
  · exact keeps_namePrimary h he
theorem keeps_powerExpr (h : Closed I) (he : Keeps I expr) (n : Nat) : Keeps I (powerExpr expr n) := by
  induction n with
  | zero => exact Keeps.outOfFuel
  | succ n ih => unfold powerExpr; pkept h; exact keeps_primaryExpression h he
theorem keeps_countPrefix (h : Closed I) (t : Tok) (n count : Nat) : Keeps I (countPrefix t n count) := by
  induction n generalizing count with
  | zero => exact Keeps.outOfFuel
  | succ n ih => unfold countPrefix; pkept h; exact ih _
theorem keeps_negExpr (h : Closed I) (he : Keeps I expr) (n : Nat) : Keeps I (negExpr expr n) := by
  unfold negExpr; pkept h
  · exact keeps_countPrefix h _ _ _
  · exact keeps_powerExpr h he _
theorem keeps_multLoop (h : Closed I) (he : Keeps I expr) (n : Nat) (t : Ty) (k : Nat) : Keeps I (multLoop expr n t k) := by
  induction k with
  | zero => exact Keeps.outOfFuel
  | succ k ih => unfold multLoop; pkept h; exact keeps_negExpr h he _
theorem keeps_multExpr (h : Closed I) (he : Keeps I expr) (n : Nat) : Keeps I (multExpr expr n) := by
  unfold multExpr; pkept h
  · exact keeps_negExpr h he _
  · exact keeps_multLoop h he _ _ _
theorem keeps_addLoop (h : Closed I) (he : Keeps I expr) (n k : Nat) : Keeps I (addLoop expr n k) := by
  induction k with
  | zero => exact Keeps.outOfFuel
  | succ k ih => unfold addLoop; pkept h; exact keeps_multExpr h he _
theorem keeps_concatLoop (h : Closed I) (he : Keeps I expr) (n k : Nat) : Keeps I (concatLoop expr n k) := by
  induction k with
  | zero => exact Keeps.outOfFuel
  | succ k ih => unfold concatLoop; pkept h; exact keeps_multExpr h he _
theorem keeps_addExpr (h : Closed I) (he : Keeps I expr) (n : Nat) : Keeps I (addExpr expr n) := by
  unfold addExpr; pkept h
  · exact keeps_multExpr h he _
  · exact keeps_addLoop h he _ _
  · exact keeps_concatLoop h he _ _
theorem keeps_relationalExpression (h : Closed I) (he : Keeps I expr) (n : Nat) : Keeps I (relationalExpression expr n) := by
  unfold relationalExpression; pkept h
  all_goals exact keeps_addExpr h he _
theorem keeps_notExpression (h : Closed I) (he : Keeps I expr) (n : Nat) : Keeps I (notExpression expr n) := by
  unfold notExpression; pkept h
  · exact keeps_countPrefix h _ _ _
  · exact keeps_relationalExpression h he _
theorem keeps_andLoop (h : Closed I) (he : Keeps I expr) (n : Nat) (t : Ty) (k : Nat) : Keeps I (andLoop expr n t k) := by
  induction k with
  | zero => exact Keeps.outOfFuel
  | succ k ih => unfold andLoop; pkept h; exact keeps_notExpression h he _
theorem keeps_andExpression (h : Closed I) (he : Keeps I expr) (n : Nat) : Keeps I (andExpression expr n) := by
  unfold andExpression; pkept h
  · exact keeps_notExpression h he _
  · exact keeps_andLoop h he _ _ _
theorem keeps_orLoop (h : Closed I) (he : Keeps I expr) (n : Nat) (t : Ty) (k : Nat) : Keeps I (orLoop expr n t k) := by
  induction k with
  | zero => exact Keeps.outOfFuel
  | succ k ih => unfold orLoop; pkept h; exact keeps_andExpression h he _
theorem keeps_orExpression (h : Closed I) (he : Keeps I expr) (n : Nat) : Keeps I (orExpression expr n) := by
  unfold orExpression; pkept h
  · exact keeps_andExpression h he _
  · exact keeps_orLoop h he _ _ _
end Expr

theorem keeps_expressionN (h : Closed I) (n : Nat) : Keeps I (expressionN n) := by
  induction n with
  | zero => exact Keeps.outOfFuel
  | succ n ih => unfold expressionN; exact keeps_orExpression h ih _
theorem keeps_expression (h : Closed I) : Keeps I expression := by
  unfold expression; pkeeps; exact keeps_expressionN h _

theorem keeps_dataLoop (h : Closed I) (n : Nat) : Keeps I (dataLoop n) := by
  induction n with
  | zero => exact Keeps.outOfFuel
  | succ n ih =>
    have hd : Keeps I (do let w ← nextData; emit (.data w); dataLoop n) :=
      keeps_nextData_bind h (fun w hl => Keeps.bind (h.emit (.data w) hl) (fun _ => ih))
    unfold dataLoop; pkept h
theorem keeps_dataStatement (h : Closed I) : Keeps I dataStatement := by
  refine keeps_nextData_bind h (fun w hl => Keeps.bind (h.emit (.data w) hl) (fun _ => ?_))
  pkept h; exact keeps_dataLoop h _
theorem keeps_readItem (h : Closed I) : Keeps I readItem := by
  unfold readItem; pkept h; exact keeps_identifier h (keeps_expression h) (.inr rfl)
theorem keeps_commaLoop (h : Closed I) {item : P Unit} (hi : Keeps I item) (n : Nat) : Keeps I (commaLoop item n) := by
  induction n with
  | zero => exact Keeps.outOfFuel
  | succ n ih => unfold commaLoop; pkept h
theorem keeps_readStatement (h : Closed I) : Keeps I readStatement := by
  unfold readStatement; pkept h
  · exact keeps_readItem h
  · exact keeps_commaLoop h (keeps_readItem h) _
theorem keeps_restoreStatement (h : Closed I) : Keeps I restoreStatement := by
  unfold restoreStatement; pkept h
theorem keeps_defParameter (h : Closed I) : Keeps I defParameter := by
  unfold defParameter; pkept h; exact keeps_numericSimpleVariable h (keeps_expression h)
theorem keeps_defStatement (h : Closed I) : Keeps I defStatement := by
  unfold defStatement; pkept h
  · rename_i name hn
    have := h.defSymbol name
    rwa [if_pos hn] at this
  · rename_i name hn
    have := h.defSymbol name
    rwa [if_neg hn] at this
  · exact keeps_defParameter h
  · exact keeps_stringExpression (keeps_expression h)
  · exact keeps_numericExpression (keeps_expression h)
theorem keeps_dimArray (h : Closed I) : Keeps I dimArray := by
  unfold dimArray; pkept h; exact keeps_identifier h (keeps_expression h) (.inr rfl)
theorem keeps_dimStatement (h : Closed I) : Keeps I dimStatement := by
  unfold dimStatement; pkept h
  · exact keeps_dimArray h
  · exact keeps_commaLoop h (keeps_dimArray h) _
theorem keeps_forStatement (h : Closed I) : Keeps I forStatement := by
  unfold forStatement; pkept h
  · exact keeps_numericSimpleVariable h (keeps_expression h)
  all_goals first | exact keeps_numericExpression (keeps_expression h) | exact h.emit (.pushNum (.fin 1)) valid_one
theorem keeps_nextItem (h : Closed I) : Keeps I nextItem := by
  unfold nextItem; pkept h; exact keeps_numericSimpleVariable h (keeps_expression h)
theorem keeps_nextStatement (h : Closed I) : Keeps I nextStatement := by
  unfold nextStatement; pkept h
  · exact keeps_nextItem h
  · exact keeps_commaLoop h (keeps_nextItem h) _
theorem keeps_ifStatement (h : Closed I) : Keeps I ifStatement := by
  unfold ifStatement; pkept h; exact keeps_numericExpression (keeps_expression h)
theorem keeps_elseClause (h : Closed I) : Keeps I elseClause := by
  unfold elseClause; pkept h; exact h.patch _ _ trivial
theorem keeps_inputBuffer (h : Closed I) : Keeps I inputBuffer := by
  unfold inputBuffer; pkept h
theorem keeps_inputItem (h : Closed I) : Keeps I inputItem := by
  unfold inputItem; pkept h
  exact keeps_identifier h (keeps_expression h) (.inr rfl)
theorem keeps_inputLoop (h : Closed I) (n : Nat) : Keeps I (inputLoop n) := by
  induction n with
  | zero => exact Keeps.outOfFuel
  | succ n ih => unfold inputLoop; pkept h; exact keeps_inputItem h
theorem keeps_inputStatement (h : Closed I) : Keeps I inputStatement := by
  unfold inputStatement; pkept h
  · exact keeps_inputBuffer h
  · exact keeps_inputItem h
  · exact keeps_inputLoop h _
theorem keeps_lineInputStatement (h : Closed I) : Keeps I lineInputStatement := by
  unfold lineInputStatement; pkept h
  · exact keeps_inputBuffer h
  · exact keeps_identifier h (keeps_expression h) (.inr rfl)
theorem keeps_assignment (h : Closed I) : Keeps I assignment := by
  unfold assignment; pkept h
  · exact keeps_identifier h (keeps_expression h) (.inr rfl)
  · exact keeps_expression h
theorem keeps_onLoop (h : Closed I) (n count : Nat) : Keeps I (onLoop n count) := by
  induction n generalizing count with
  | zero => exact Keeps.outOfFuel
  | succ n ih => unfold onLoop onLine; pkept h; exact ih _
theorem keeps_onStatement (h : Closed I) : Keeps I onStatement := by
  unfold onStatement onLine; pkept h
  · exact keeps_numericExpression (keeps_expression h)
  · exact keeps_onLoop h _ _
  all_goals exact h.patch _ _ trivial
theorem keeps_printLoop (h : Closed I) (n : Nat) (sep : Bool) : Keeps I (printLoop n sep) := by
  induction n generalizing sep with
  | zero => exact Keeps.outOfFuel
  | succ n ih =>
    have hn := keeps_numericExpression (keeps_expression h)
    have hx := keeps_expression h
    have ht := ih true
    have hf := ih false
    unfold printLoop printBuiltin; pkept h
theorem keeps_printStatement (h : Closed I) : Keeps I printStatement := by
  unfold printStatement; pkept h; all_goals exact keeps_printLoop h _ _
theorem keeps_randomizeStatement (h : Closed I) : Keeps I randomizeStatement := by
  unfold randomizeStatement; pkept h; exact keeps_numericExpression (keeps_expression h)

theorem keeps_statementBody (h : Closed I) (t : Tok) : Keeps I (statementBody t) := by
  unfold statementBody plain clearStatement clsStatement endStatement gosubStatement gotoStatement letStatement
    returnStatement stopStatement
  pkept h
  · exact keeps_dataStatement h
  · exact keeps_defStatement h
  · exact keeps_dimStatement h
  · exact keeps_forStatement h
  · exact keeps_ifStatement h
  · exact keeps_inputStatement h
  · exact keeps_assignment h
  · exact keeps_lineInputStatement h
  · exact keeps_nextStatement h
  · exact keeps_onStatement h
  · exact keeps_printStatement h
  · exact keeps_printStatement h
  · exact keeps_randomizeStatement h
  · exact keeps_readStatement h
  · exact keeps_remStatement h
  · exact keeps_restoreStatement h
  · exact keeps_assignment h
theorem keeps_statement (h : Closed I) : Keeps I statement := by
  unfold statement; pkept h
  · exact keeps_statementBody h _
  · exact keeps_elseClause h
theorem keeps_completeStatement (h : Closed I) (n : Nat) : Keeps I (completeStatement n) := by
  induction n with
  | zero => exact Keeps.outOfFuel
  | succ n ih => unfold completeStatement; pkept h; exact keeps_statement h
theorem keeps_colonLoop (h : Closed I) (f n : Nat) : Keeps I (colonLoop f n) := by
  induction n with
  | zero => exact Keeps.outOfFuel
  | succ n ih => unfold colonLoop; pkept h; exact keeps_completeStatement h _
theorem keeps_parseLine (h : Closed I) (i n : Nat) (t : CStr) : Keeps I (parseLine i n t) := by
  unfold parseLine; pkept h
  · exact keeps_startLine h _ _
  · exact keeps_completeStatement h _
  · exact keeps_colonLoop h _ _
theorem keeps_parseLines (h : Closed I) (ls : List SrcLine) (i : Nat) : Keeps I (parseLines ls i) := by
  induction ls generalizing i with
  | nil => exact Keeps.pure _
  | cons l ls ih => unfold parseLines; pkept h; exact keeps_parseLine h _ _ _; exact ih _

end P
end LB
