import Verif.Proofs.Exec
import Verif.Proofs.Frame
import Verif.Proofs.Code
import Verif.Spec.Functions
/- What the instructions of expressions change. -/
namespace LB
open LB.Spec Code

theorem Spec.Seen.defined {s t : Symbol} (h : Seen s t) (hd : s.defined = true) : t = s := by
  cases h with
  | same => rfl
  | num _ _ h | str _ _ h | numarr _ _ h _ | strarr _ _ h _ | nonum _ _ h | nostr _ _ h => rw [hd] at h; cases h

theorem Spec.Seen.trans {s t u : Symbol} (h1 : Seen s t) (h2 : Seen t u) : Seen s u := by
  have hd : ∀ {v : Symbol}, v.defined = true → t = v → Seen s u := by
    intro v hv ht
    rw [h2.defined (by rw [ht]; exact hv)]
    exact h1
  cases h1 with
  | same => exact h2
  | num _ _ _ => exact hd rfl rfl
  | str _ _ _ => exact hd rfl rfl
  | numarr _ _ _ _ => exact hd rfl rfl
  | strarr _ _ _ _ => exact hd rfl rfl
  | nonum hk ht h =>
    cases h2 with
    | same => exact .nonum hk ht h
    | num k | str k => rw [hk] at k; cases k
    | numarr _ _ _ k => exact .numarr hk ht h k
    | strarr _ k | nostr _ k => rw [ht] at k; cases k
    | nonum => exact .nonum hk ht h
  | nostr hk ht h =>
    cases h2 with
    | same => exact .nostr hk ht h
    | num k | str k => rw [hk] at k; cases k
    | strarr _ _ _ k => exact .strarr hk ht h k
    | numarr _ k | nonum _ k => rw [ht] at k; cases k
    | nostr => exact .nostr hk ht h

theorem Spec.OnlyReads.refl (a : VM) : OnlyReads a a := ⟨rfl, ⟨rfl, rfl, rfl⟩, fun _ _ _ h1 h2 => by rw [h1] at h2; cases h2; exact .same⟩

theorem Spec.OnlyReads.trans {a b c : VM} (h1 : OnlyReads a b) (h2 : OnlyReads b c) : OnlyReads a c := by
  refine ⟨?_, ⟨h2.names.1.trans h1.names.1, h2.names.2.1.trans h1.names.2.1, h2.names.2.2.trans h1.names.2.2⟩, ?_⟩
  · have k1 := h1.rest
    have k2 := h2.rest
    rw [k2]
    generalize hst : c.st = st, c.stack = s1, c.strstack = s2, c.world.rng = r, c.world.ticks = t
    rw [k1]
  · intro j s t hs ht
    have hj : j < b.st.psym.length := by
      rw [h1.names.2.2]
      exact (List.getElem?_eq_some_iff.1 hs).1
    exact (h1.syms j s _ hs (List.getElem?_eq_getElem hj)).trans (h2.syms j _ t (List.getElem?_eq_getElem hj) ht)

theorem Spec.OnlyReads.update {vm : VM} {p : Nat} {s : Symbol} {f : Symbol → Symbol} (hs : vm.st.psym[p]? = some s) (h : Seen s (f s)) :
    OnlyReads vm { vm with st := symUpdate vm.st p f } := by
  refine ⟨rfl, ⟨rfl, rfl, by simp [symUpdate]⟩, fun j u t hu ht => ?_⟩
  by_cases hj : j = p
  · subst hj
    rw [symUpdate_same hs] at ht
    rw [hs] at hu
    cases hu; cases ht
    exact h
  · rw [symUpdate_other _ _ _ _ hj, hu] at ht
    cases ht
    exact .same

namespace V

/-- The machine after success or an error. -/
inductive Leaves {α : Type} : Res α → VM → Prop
  | ok {u vm} : Leaves (.ok u vm) vm
  | err {e vm} : Leaves (.err e vm) vm

/-- With or without an error nothing changes but what `OnlyReads` allows. -/
def Soft {α : Type} (x : VmM α) : Prop := ∀ vm vm', Leaves (x vm) vm' → OnlyReads vm vm'

variable {α β : Type}
namespace Soft

theorem bind {x : VmM α} {f : α → VmM β} (hx : Soft x) (hf : ∀ u, Soft (f u)) : Soft (x >>= f) := by
  intro vm vm' h
  simp only [bind_apply] at h
  have hx := hx vm
  cases h1 : x vm with
  | ok v vm1 => rw [h1] at h hx; exact (hx vm1 .ok).trans (hf v vm1 vm' h)
  | err e a => rw [h1] at h hx; cases h; exact hx _ .err
  | halt e => rw [h1] at h; cases h

theorem pure (u : α) : Soft (Pure.pure u) := fun vm _ h => by cases h; exact OnlyReads.refl vm
theorem halt (e : Halt) : Soft (V.halt e : VmM α) := fun _ _ h => by cases h
theorem fail (e : RunError) : Soft (V.fail e : VmM α) := fun vm _ h => by cases h; exact OnlyReads.refl vm
theorem ite {c : Prop} [Decidable c] {x y : VmM α} (hx : Soft x) (hy : Soft y) : Soft (if c then x else y) := by
  split
  · exact hx
  · exact hy
theorem assert (c : Bool) (w : String) : Soft (V.assert c w) := by
  cases c
  · exact halt _
  · exact pure ()
theorem check (c : Bool) (e : RunError) : Soft (V.check c e) := by
  cases c
  · exact pure ()
  · exact fail _
theorem when {c : Bool} {x : VmM Unit} (h : Soft x) : Soft (V.when_ c x) := by
  cases c
  · exact pure ()
  · exact h
theorem lift (r : Outcome α) : Soft (V.lift r) := by
  cases r
  · exact pure _
  · exact halt _
theorem get {f : VM → VmM α} (h : ∀ u, Soft (f u)) : Soft (V.get >>= f) := fun vm => h vm vm
theorem modify {f : VM → VM} (h : ∀ u, OnlyReads u (f u)) : Soft (V.modify f) := fun vm _ h' => by cases h'; exact h vm
theorem brk {x : VmM Unit} (h : Soft x) : Soft (V.brk x) := bind h (fun _ => pure _)

theorem pop : Soft V.pop := by
  intro vm vm' h
  unfold V.pop at h
  split at h
  · cases h; exact OnlyReads.refl vm
  · cases h; exact ⟨rfl, ⟨rfl, rfl, rfl⟩, (OnlyReads.refl vm).syms⟩
theorem push (x : Dbl) : Soft (V.push x) := by
  intro vm vm' h
  unfold V.push at h
  split at h
  · cases h; exact OnlyReads.refl vm
  · cases h; exact ⟨rfl, ⟨rfl, rfl, rfl⟩, (OnlyReads.refl vm).syms⟩
theorem popStr : Soft V.popStr := by
  intro vm vm' h
  unfold V.popStr at h
  split at h
  · cases h; exact OnlyReads.refl vm
  · cases h; exact ⟨rfl, ⟨rfl, rfl, rfl⟩, (OnlyReads.refl vm).syms⟩
theorem pushStr (x : CStr) : Soft (V.pushStr x) := by
  intro vm vm' h
  unfold V.pushStr at h
  split at h
  · cases h; exact OnlyReads.refl vm
  · cases h; exact ⟨rfl, ⟨rfl, rfl, rfl⟩, (OnlyReads.refl vm).syms⟩
theorem sym (p : Nat) : Soft (V.sym p) := by
  intro vm vm' h
  unfold V.sym at h
  cases hs : symbolAt vm.st p with
  | ok s => rw [hs] at h; cases h; exact OnlyReads.refl vm
  | halt e => rw [hs] at h; cases h

end Soft

macro "soft" : tactic => `(tactic| (with_reducible repeat' (first
  | apply Soft.pure | apply Soft.halt | apply Soft.fail | apply Soft.assert | apply Soft.check | apply Soft.lift
  | apply Soft.pop | apply Soft.push | apply Soft.popStr | apply Soft.pushStr | apply Soft.sym
  | assumption
  | apply Soft.get | apply Soft.brk | apply Soft.when
  | apply Soft.bind | apply Soft.ite | intro _ | split)))

theorem soft_popLogic : Soft popLogic := by unfold popLogic; soft
theorem soft_popUnsigned : Soft popUnsigned := by unfold popUnsigned; soft
theorem soft_popIndex : Soft popIndex := by unfold popIndex; soft
theorem soft_popIndexLoop (n : Nat) : Soft (popIndexLoop n) := by
  induction n with
  | zero => exact Soft.pure _
  | succ n ih => exact Soft.bind soft_popIndex (fun _ => Soft.bind ih (fun _ => Soft.pure _))
theorem soft_popIndexes (n : Nat) : Soft (popIndexes n) := Soft.bind (Soft.assert _ _) (fun _ => soft_popIndexLoop n)
theorem soft_compareStrings : Soft compareStrings := by unfold compareStrings; soft
theorem soft_readClock (env : Env) : Soft (readClock env) :=
  Soft.get (fun _ => Soft.bind (Soft.modify (fun u => ⟨rfl, ⟨rfl, rfl, rfl⟩, (OnlyReads.refl u).syms⟩)) (fun _ => Soft.pure _))
theorem soft_rndStep (env : Env) : Soft (rndStep env) := by
  have h : ∀ g : Nat, Soft (V.modify (fun vm => { vm with world := { vm.world with rng := g } })) :=
    fun g => Soft.modify (fun u => ⟨rfl, ⟨rfl, rfl, rfl⟩, (OnlyReads.refl u).syms⟩)
  refine Soft.get (fun u => ?_)
  refine Soft.bind (h _) (fun _ => ?_)
  soft
theorem soft_builtinOp (env : Env) (b : Bi) : Soft (builtinOp env b) := by
  have h1 := soft_popUnsigned
  have h2 := soft_readClock env
  cases b <;> simp only [builtinOp, leftFn, rightFn, midFn, valFn] <;> soft

theorem soft_getNumericSimple (p : Nat) : Soft (getNumericSimple p) := by
  intro vm vm' h
  unfold getNumericSimple at h
  simp only [bind_apply] at h
  cases hs : vm.st.psym[p]? with
  | none => simp only [sym, symbolAt, hs] at h; cases h
  | some s =>
    simp only [sym_ok hs, assert_apply] at h
    by_cases hv : isVar s .num = true
    case neg => simp only [hv] at h; cases h
    simp only [hv, if_true] at h
    cases hd : s.defined with
    | true =>
      simp only [hd, Bool.not_true, when_, Bool.false_eq_true, if_false, pure_apply, sym_ok hs] at h
      exact Soft.push _ _ _ h
    | false =>
      simp only [isVar, Bool.and_eq_true, beq_iff_eq] at hv
      simp only [hd, Bool.not_false, when_, if_true, updSym, modify_apply] at h
      have hq : OnlyReads vm { vm with st := symUpdate vm.st p (fun s => { s with num := .fin 0, defined := true }) } :=
        OnlyReads.update hs (.num hv.1 hv.2 hd)
      rw [sym_ok (symUpdate_same hs)] at h
      exact hq.trans (Soft.push _ _ _ h)

theorem soft_getStringSimple (p : Nat) : Soft (getStringSimple p) := by
  intro vm vm' h
  unfold getStringSimple at h
  simp only [bind_apply] at h
  cases hs : vm.st.psym[p]? with
  | none => simp only [sym, symbolAt, hs] at h; cases h
  | some s =>
    simp only [sym_ok hs, assert_apply] at h
    by_cases hv : isVar s .str = true
    case neg => simp only [hv] at h; cases h
    simp only [hv, if_true] at h
    cases hd : s.defined with
    | true =>
      simp only [hd, Bool.not_true, when_, Bool.false_eq_true, if_false, pure_apply, sym_ok hs] at h
      exact Soft.pushStr _ _ _ h
    | false =>
      simp only [isVar, Bool.and_eq_true, beq_iff_eq] at hv
      simp only [hd, Bool.not_false, when_, if_true, updSym, modify_apply] at h
      have hq : OnlyReads vm { vm with st := symUpdate vm.st p (fun s => { s with str := none, defined := true }) } :=
        OnlyReads.update hs (.str hv.1 hv.2 hd)
      rw [sym_ok (symUpdate_same hs)] at h
      exact hq.trans (Soft.pushStr _ _ _ h)

/-- Making an array does what reading may do. -/
def FieldSeen (F : ArrField α) : Prop :=
  (∀ (s : Symbol) (a : BArray α), s.kind = .array → s.type = F.type → s.defined = false →
    (∀ y ∈ a.val, y = F.zero) → Seen s { F.set (some a) s with defined := true }) ∧
  ∀ (s : Symbol), s.kind = .array → s.type = F.type → s.defined = false → Seen s { F.set none s with defined := false }

theorem numField_seen : FieldSeen numField := ⟨fun _ _ h1 h2 h3 h4 => .numarr h1 h2 h3 h4, fun _ h1 h2 h3 => .nonum h1 h2 h3⟩
theorem strField_seen : FieldSeen strField := ⟨fun _ _ h1 h2 h3 h4 => .strarr h1 h2 h3 h4, fun _ h1 h2 h3 => .nostr h1 h2 h3⟩

theorem newArray_zero {zero : α} {base : Nat} {m : List Nat} {a : BArray α} (h : newArray zero base m = .ok (some a)) :
    ∀ y ∈ a.val, y = zero := by
  unfold newArray at h
  split at h
  · cases h
  · cases h
  · cases h
    intro y hy
    exact List.eq_of_mem_replicate hy

/-- `Soft` from one machine. -/
def SoftAt (vm : VM) (x : VmM α) : Prop := ∀ vm', Leaves (x vm) vm' → OnlyReads vm vm'

theorem SoftAt.bind {vm : VM} {x : VmM α} {f : α → VmM β} (hx : SoftAt vm x) (hf : ∀ u vm', x vm = .ok u vm' → SoftAt vm' (f u)) :
    SoftAt vm (x >>= f) := by
  intro vm' h
  simp only [bind_apply] at h
  cases h1 : x vm with
  | ok v vm1 => rw [h1] at h; exact (hx vm1 (by rw [h1]; exact .ok)).trans (hf v vm1 h1 vm' h)
  | err e a => rw [h1] at h; cases h; exact hx _ (by rw [h1]; exact .err)
  | halt e => rw [h1] at h; cases h

theorem sym_inv {p : Nat} {vm vm' : VM} {s : Symbol} (h : sym p vm = .ok s vm') : vm.st.psym[p]? = some s ∧ vm' = vm := by
  cases hs : vm.st.psym[p]? with
  | none => simp only [sym, symbolAt, hs] at h; cases h
  | some q => rw [sym_ok hs] at h; cases h; exact ⟨rfl, rfl⟩

theorem assert_inv {c : Bool} {w : String} {vm vm' : VM} {u : Unit} (h : V.assert c w vm = .ok u vm') : c = true ∧ vm' = vm := by
  cases c
  · cases h
  · cases h; exact ⟨rfl, rfl⟩

theorem softAt_dimension {F : ArrField α} (hF : FieldSeen F) {p : Nat} {m : List Nat} {vm : VM} {s : Symbol} (hs : vm.st.psym[p]? = some s)
    (hd : s.defined = false) : SoftAt vm (dimension F p m) := by
  refine SoftAt.bind (Soft.sym p vm) (fun s' vm1 h1 => ?_)
  obtain ⟨h2, rfl⟩ := sym_inv h1
  rw [hs] at h2
  cases h2
  refine SoftAt.bind (Soft.assert _ _ _) (fun _ vm2 h3 => ?_)
  obtain ⟨h4, rfl⟩ := assert_inv h3
  simp only [isArr, Bool.and_eq_true, beq_iff_eq] at h4
  refine SoftAt.bind (Soft.lift _ _) (fun o vm3 h5 => ?_)
  cases hn : newArray F.zero 0 m with
  | halt e => rw [hn] at h5; cases h5
  | ok o' =>
    rw [hn] at h5
    cases h5
    cases o with
    | none => intro vm' h; cases h; exact OnlyReads.update hs (hF.2 s h4.1 h4.2 hd)
    | some a =>
      intro vm' h
      cases h
      exact OnlyReads.update hs (hF.1 s a h4.1 h4.2 hd (newArray_zero hn))

theorem soft_elementArray {F : ArrField α} (hF : FieldSeen F) (p n : Nat) : Soft (elementArray F p n) := by
  intro vm
  refine SoftAt.bind (Soft.sym p vm) (fun s vm1 h1 => ?_)
  obtain ⟨h2, rfl⟩ := sym_inv h1
  refine SoftAt.bind (Soft.assert _ _ _) (fun _ vm2 h3 => ?_)
  obtain ⟨h4, rfl⟩ := assert_inv h3
  refine SoftAt.bind (soft_popIndexes n _) (fun ix vm3 h5 => ?_)
  have hst : vm3.st = vm2.st := by
    have := keeps_popIndexes (closed_st vm2.st) n vm2 rfl
    rw [h5] at this
    exact this
  refine SoftAt.bind ?_ (fun _ vm4 h6 => ?_)
  · cases hd : s.defined with
    | true => exact Soft.pure () _
    | false =>
      show SoftAt vm3 (dimensionAuto F p ix)
      refine SoftAt.bind (Soft.sym p _) (fun s' vm5 h7 => ?_)
      obtain ⟨h8, rfl⟩ := sym_inv h7
      refine SoftAt.bind (Soft.assert _ _ _) (fun _ vm6 h9 => ?_)
      obtain ⟨-, rfl⟩ := assert_inv h9
      exact softAt_dimension hF (by rw [hst]; exact h2) hd
  · refine (?_ : Soft _) vm4
    soft

theorem soft_getElement {F : ArrField α} (hF : FieldSeen F) (p n : Nat) : Soft (getElement F p n) := by
  have := soft_elementArray hF p n; unfold getElement; soft

theorem computing_isExpr (i : Inst) : computing i = isExpr i := by cases i <;> rfl

theorem soft_plain (env : Env) {i : Inst} (hi : computing i = true) (h1 : ∀ p n, i ≠ .getParenNum p n) (h2 : ∀ p n, i ≠ .getParenStr p n) :
    Soft (exec env i) := by
  have k1 := soft_popLogic
  have k2 := soft_compareStrings
  cases i with
  | getParenNum p n => exact absurd rfl (h1 p n)
  | getParenStr p n => exact absurd rfl (h2 p n)
  | bi b =>
    cases b with
    | rnd => exact soft_rndStep env
    | _ => exact Soft.brk (soft_builtinOp env _)
  | getSimpleNum p => exact Soft.brk (soft_getNumericSimple p)
  | getSimpleStr p => exact Soft.brk (soft_getStringSimple p)
  | _ =>
    first
    | exact (Bool.false_ne_true hi).elim
    | (simp only [exec, pushLogic]; soft)

/-- An instruction of an expression that does not call a function. -/
theorem exec_quiet (env : Env) {i : Inst} {vm vm' : VM} (hi : computing i = true) (hc : ∀ n s, ¬ CallOf vm.st i n s)
    (h : Leaves (exec env i vm) vm') : OnlyReads vm vm' := by
  by_cases h1 : ∃ p n, i = .getParenNum p n
  · obtain ⟨p, n, rfl⟩ := h1
    simp only [exec, brk_apply, getParenNum, bind_apply] at h
    cases hs : vm.st.psym[p]? with
    | none => simp only [sym, symbolAt, hs] at h; cases h
    | some q =>
      simp only [sym_ok hs, assert_apply] at h
      by_cases ht : q.type = .num
      case neg => simp [ht] at h; cases h
      simp only [ht, beq_self_eq_true, if_true] at h
      by_cases hk : q.kind = .array
      · simp only [hk, if_true] at h
        have : Soft (V.brk (getElement numField p n >>= push)) := by
          have := soft_getElement numField_seen p n
          soft
        exact this vm vm' (by rw [brk_apply]; exact h)
      · simp only [hk, if_false, bind_apply, assert_apply] at h
        by_cases hk2 : q.kind = .def_
        · exact absurd (.num hs hk2 ht) (hc n q)
        · simp [hk2] at h; cases h
  · by_cases h2 : ∃ p n, i = .getParenStr p n
    · obtain ⟨p, n, rfl⟩ := h2
      simp only [exec, brk_apply, getParenStr, bind_apply] at h
      cases hs : vm.st.psym[p]? with
      | none => simp only [sym, symbolAt, hs] at h; cases h
      | some q =>
        simp only [sym_ok hs, assert_apply] at h
        by_cases ht : q.type = .str
        case neg => simp [ht] at h; cases h
        simp only [ht, beq_self_eq_true, if_true] at h
        by_cases hk : q.kind = .array
        · simp only [hk, if_true] at h
          have : Soft (V.brk (getElement strField p n >>= fun x => pushStr (x.getD []))) := by
            have := soft_getElement strField_seen p n
            soft
          exact this vm vm' (by rw [brk_apply]; exact h)
        · simp only [hk, if_false, bind_apply, assert_apply] at h
          by_cases hk2 : q.kind = .def_
          · exact absurd (.str hs hk2 ht) (hc n q)
          · simp [hk2] at h; cases h
    · exact soft_plain env hi (fun p n hh => h1 ⟨p, n, hh⟩) (fun p n hh => h2 ⟨p, n, hh⟩) vm vm' h
end V
end LB
