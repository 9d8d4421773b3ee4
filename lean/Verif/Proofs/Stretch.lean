import Verif.Proofs.Evaluate
import Verif.Proofs.FnCall
import Verif.Proofs.Input
/- The code of an expression where it stands in a program. -/
namespace LB
open LB.Spec _root_.Spec

/-- At the place `k` of the code that the machine `base` is in. -/
def placed (base : VM) (k : Nat) : V.Under := ⟨[], [], some ({ base.cs with pc := k }, base.fn, base.defCode)⟩

theorem at_placed {base u : VM} (h : OnlyReads base u) {k : Nat} {i : Inst} (hi : instAt base k = some i) : At (V.over (placed base k) u) i := by
  simp only [instAt] at hi
  cases hc : base.cs.code with
  | none => simp [hc] at hi
  | some r =>
    cases hb : (V.codeOf base r).bcode with
    | none => simp [hc, hb] at hi
    | some b =>
      refine ⟨r, b, hc, ?_, (by simpa [hc, hb] using hi : b.inst[k]? = some i)⟩
      rw [← hb]
      have := h.rest
      cases r
      · rw [this]; rfl
      · rw [this]; rfl
      · rfl

/-- The machine makes `n` steps. -/
inductive Travels (env : Env) : VM → Nat → VM → Prop
  | here {vm} : Travels env vm 0 vm
  | step {vm vm1 n vm2} : vm.stopped = false → V.execute env vm = .ok () vm1 → Travels env vm1 n vm2 → Travels env vm (n + 1) vm2

theorem Travels.trans {env : Env} {a b c : VM} {n m : Nat} (h : Travels env a n b) (k : Travels env b m c) : Travels env a (n + m) c := by
  induction h with
  | here => rwa [Nat.zero_add]
  | @step _ _ n _ h1 h2 _ ih =>
    rw [show n + 1 + m = n + m + 1 by omega]
    exact .step h1 h2 (ih k)

theorem Travels.one {env : Env} {a b : VM} (h1 : a.stopped = false) (h2 : V.execute env a = .ok () b) : Travels env a 1 b := .step h1 h2 .here

theorem travels_after {env : Env} {n : Nat} : ∀ {vm m : VM}, after env n vm = some m → (∀ i m', i < n → after env i vm = some m' → m'.stopped = false) →
    Travels env vm n m := by
  induction n with
  | zero => intro vm m h _; cases h; exact .here
  | succ n ih =>
    intro vm m h hs
    simp only [after] at h
    cases hx : V.execute env vm with
    | ok a vm1 =>
      simp only [hx] at h
      exact .step (hs 0 vm (by omega) rfl) hx (ih h (fun i m' hi hm => hs (i + 1) m' (by omega) (by simp only [after, hx]; exact hm)))
    | err => simp [hx] at h
    | halt => simp [hx] at h

theorem Travels.after {env : Env} {n : Nat} {vm m : VM} (h : Travels env vm n m) : after env n vm = some m ∧ ∀ i m', i < n → Spec.after env i vm = some m' → m'.stopped = false := by
  induction h with
  | here => exact ⟨rfl, fun i m' hi => by omega⟩
  | step h1 h2 _ ih =>
    refine ⟨by simp only [Spec.after, h2]; exact ih.1, fun i m' hi hm => ?_⟩
    cases i with
    | zero => cases hm; exact h1
    | succ i =>
      simp only [Spec.after, h2] at hm
      exact ih.2 i m' (by omega) hm

/-- The loop of the machine while nothing interrupts it. -/
theorem Travels.loop {env : Env} {brk : Nat → Bool} {n : Nat} {vm m : VM} (h : Travels env vm n m) : ∀ {k j : Nat}, (∀ i, i < n → brk (k + i) = false) →
    vmLoop env brk (n + j) k vm = vmLoop env brk j (k + n) m := by
  induction h with
  | here => intro k j _; simp
  | @step vm vm1 n vm2 h1 hx _ ih =>
    intro k j hb
    obtain ⟨b, hc, hpc⟩ : ∃ b, V.curBcode vm = .ok b vm ∧ vm.cs.pc < b.used := by
      simp only [V.execute, V.bind_apply] at hx
      cases hc : V.curBcode vm with
      | ok b vm1 =>
        have he : vm1 = vm := by
          have := V.Keeps.curBcode (I := fun u => u = vm) vm rfl
          rw [hc] at this
          exact this
        rw [he] at hc
        refine ⟨b, congrArg (Res.ok b) he, ?_⟩
        simp only [hc, V.get_apply] at hx
        cases hi : b.inst[vm.cs.pc]? with
        | none => simp [hi, V.halt] at hx
        | some i => exact (List.getElem?_eq_some_iff.1 hi).1
      | err => simp [hc] at hx
      | halt => simp [hc] at hx
    have hu : curUsed vm = .ok b.used := by simp only [curUsed, hc]
    rw [show n + 1 + j = (n + j) + 1 by omega]
    conv => lhs; unfold vmLoop
    have hb0 := hb 0 (by omega)
    rw [Nat.add_zero] at hb0
    simp only [hu, hpc, h1, hb0, hx]
    simp only [Bool.not_false, and_self, if_true]
    rw [ih (fun i hi => by rw [show k + 1 + i = k + (i + 1) by omega]; exact hb (i + 1) (by omega))]
    rw [show k + 1 + n = k + (n + 1) by omega]

theorem placed_step {base : VM} {k : Nat} (w : VM) : { V.over (placed base k) w with cs := following (V.over (placed base k) w).cs } = V.over (placed base (k + 1)) w := rfl

theorem onlyReads_stopped {base u : VM} {k : Nat} (h : OnlyReads base u) : (V.over (placed base k) u).stopped = base.stopped := by
  rw [h.rest]; rfl

/-- The machine goes through the code of an expression. -/
theorem stretch {env : Env} {base : VM} (hs : base.stopped = false) {c : List Inst} {u : VM} {r : Res Unit} (h : Computes env c u r) (hp : ∀ i ∈ c, computing i = true)
    (hq : ∀ i ∈ c, ∀ n s, ¬ CallOf base.st i n s) : ∀ {k : Nat}, OnlyReads base u → (∀ j i, c[j]? = some i → instAt base (k + j) = some i) →
    (∀ w, r = .ok () w → ∃ n, Travels env (V.over (placed base k) u) n (V.over (placed base (k + c.length)) w)) ∧
    (∀ e w, r = .err e w → ∃ n m j, Travels env (V.over (placed base k) u) n m ∧ m.stopped = false ∧ V.execute env m = .err e (V.over (placed base j) w)) := by
  induction h with
  | done => exact fun {k} _ _ => ⟨fun w h => by cases h; exact ⟨0, .here⟩, fun e w h => by cases h⟩
  | @next i l vm vm' r hc hr _ ih =>
    intro k hb hi
    have hi0 := hp i List.mem_cons_self
    have hb' : OnlyReads base vm' := hb.trans (V.exec_quiet env hi0 hc (by rw [hr]; exact .ok))
    obtain ⟨h1, h2⟩ := ih (fun i h => hp i (List.mem_cons_of_mem _ h)) (fun i h => hq i (List.mem_cons_of_mem _ h)) (k := k + 1) hb' (fun j i' hj => by
      have := hi (j + 1) i' (by simpa using hj)
      rwa [show k + 1 + j = k + (j + 1) by omega])
    have hx : V.execute env (V.over (placed base k) vm) = .ok () (V.over (placed base (k + 1)) vm') := by
      rw [V.execute_at env (at_placed hb (by simpa using hi 0 i rfl))]
      have ht := V.tops_exec (placed base k) env hi0 hc
      rw [hr] at ht
      generalize V.exec env i (V.over (placed base k) vm) = y at ht
      cases ht with
      | ok => rfl
      | fullNum h | fullStr h => exact absurd rfl h
    have hst := (onlyReads_stopped (k := k) hb).trans hs
    refine ⟨fun w h => ?_, fun e w h => ?_⟩
    · obtain ⟨n, hn⟩ := h1 w h
      refine ⟨n + 1, .step hst hx ?_⟩
      rwa [List.length_cons, show k + (l.length + 1) = k + 1 + l.length by omega]
    · obtain ⟨n, m, j, k1, k2, k3⟩ := h2 e w h
      exact ⟨n + 1, m, j, .step hst hx k1, k2, k3⟩
  | @again i l vm vm' r hc hr _ ih =>
    intro k hb hi
    have hi0 := hp i List.mem_cons_self
    have hb' : OnlyReads base vm' := hb.trans (V.exec_quiet env hi0 hc (by rw [hr]; exact .ok))
    obtain ⟨h1, h2⟩ := ih hp hq (k := k) hb' hi
    have hx : V.execute env (V.over (placed base k) vm) = .ok () (V.over (placed base k) vm') := by
      rw [V.execute_at env (at_placed hb (by simpa using hi 0 i rfl))]
      have ht := V.tops_exec (placed base k) env hi0 hc
      rw [hr] at ht
      generalize V.exec env i (V.over (placed base k) vm) = y at ht
      cases ht with
      | ok => rfl
      | fullNum h | fullStr h => exact absurd rfl h
    have hst := (onlyReads_stopped (k := k) hb).trans hs
    refine ⟨fun w h => ?_, fun e w h => ?_⟩
    · obtain ⟨n, hn⟩ := h1 w h
      exact ⟨n + 1, .step hst hx hn⟩
    · obtain ⟨n, m, j, k1, k2, k3⟩ := h2 e w h
      exact ⟨n + 1, m, j, .step hst hx k1, k2, k3⟩
  | @err i l vm vm' e hc hr =>
    intro k hb hi
    refine ⟨fun w h => (by cases h), fun e w h => ?_⟩
    cases h
    have hi0 := hp i List.mem_cons_self
    refine ⟨0, _, k, .here, (onlyReads_stopped hb).trans hs, ?_⟩
    rw [V.execute_at env (at_placed hb (by simpa using hi 0 i rfl))]
    have ht := V.tops_exec (placed base k) env hi0 hc
    rw [hr] at ht
    generalize V.exec env i (V.over (placed base k) vm) = y at ht
    cases ht with
    | err => rfl
    | fullNum h | fullStr h => exact absurd rfl h
    | emptyNum h | emptyStr h => exact absurd rfl h
  | halt hc hr => exact fun {k} _ _ => ⟨fun w h => (by cases h), fun e w h => by cases h⟩
  | nested hc => exact fun {k} hb _ => absurd hc (onlyReads_call hb (hq _ List.mem_cons_self) _ _)
  | undefined hc => exact fun {k} hb _ => absurd hc (onlyReads_call hb (hq _ List.mem_cons_self) _ _)

/-- Instructions in the code of expressions. -/
theorem postfix_inst {st : SymTab} {t : Ty} {e : Expr t} {c : List Inst} (h : Postfix st e c) :
    ∀ i ∈ c, plainOp i = true ∨ i = .bi .rnd ∨ i = .bi .timeStr ∨ (∃ t, i = popInst t) ∨
      ∃ (t : Ty) (w : CStr) (q : Nat) (s : Symbol) (n : Nat), i = getInst t s.id n ∧ w ∈ e.arrays ∧ st.psym[q]? = some s ∧ SameIgnoringCase s.name w := by
  induction h with
  | num | str | numVar | strVar => intro i hi; simp only [List.mem_singleton] at hi; subst hi; exact .inl rfl
  | rnd => intro i hi; simp only [List.mem_singleton] at hi; subst hi; exact .inr (.inl rfl)
  | time => intro i hi; simp only [List.mem_singleton] at hi; subst hi; exact .inr (.inr (.inl rfl))
  | neg _ ih | not _ ih =>
    intro i hi
    simp only [List.mem_append, List.mem_singleton] at hi
    rcases hi with hi | rfl
    · exact ih i hi
    · exact .inl rfl
  | @numFn f _ _ _ ih | @strFn f _ _ _ ih | @textFn f _ _ _ ih =>
    intro i hi
    simp only [List.mem_append, List.mem_singleton] at hi
    rcases hi with hi | rfl
    · exact ih i hi
    · left; cases f <;> rfl
  | arith _ _ ih ih' | concat _ _ ih ih' | cmp _ _ ih ih' | cmpStr _ _ ih ih' | and _ _ ih ih' | or _ _ ih ih' =>
    intro i hi
    simp only [List.mem_append, List.mem_singleton] at hi
    rcases hi with (hi | hi) | rfl
    · rcases ih i hi with h | h | h | h | ⟨t, w, q, s, n, h1, h2, h3⟩
      · exact .inl h
      · exact .inr (.inl h)
      · exact .inr (.inr (.inl h))
      · exact .inr (.inr (.inr (.inl h)))
      · exact .inr (.inr (.inr (.inr ⟨t, w, q, s, n, h1, List.mem_append_left _ h2, h3⟩)))
    · rcases ih' i hi with h | h | h | h | ⟨t, w, q, s, n, h1, h2, h3⟩
      · exact .inl h
      · exact .inr (.inl h)
      · exact .inr (.inr (.inl h))
      · exact .inr (.inr (.inr (.inl h)))
      · exact .inr (.inr (.inr (.inr ⟨t, w, q, s, n, h1, List.mem_append_right _ h2, h3⟩)))
    · exact .inl rfl
  | @endFn f _ _ _ _ _ _ ih ih' =>
    intro i hi
    simp only [List.mem_append, List.mem_singleton] at hi
    rcases hi with (hi | hi) | rfl
    · rcases ih i hi with h | h | h | h | ⟨t, w, q, s, n, h1, h2, h3⟩
      · exact .inl h
      · exact .inr (.inl h)
      · exact .inr (.inr (.inl h))
      · exact .inr (.inr (.inr (.inl h)))
      · exact .inr (.inr (.inr (.inr ⟨t, w, q, s, n, h1, List.mem_append_left _ h2, h3⟩)))
    · rcases ih' i hi with h | h | h | h | ⟨t, w, q, s, n, h1, h2, h3⟩
      · exact .inl h
      · exact .inr (.inl h)
      · exact .inr (.inr (.inl h))
      · exact .inr (.inr (.inr (.inl h)))
      · exact .inr (.inr (.inr (.inr ⟨t, w, q, s, n, h1, List.mem_append_right _ h2, h3⟩)))
    · left; cases f <;> rfl
  | mid _ _ _ ih ih' ih'' =>
    intro i hi
    simp only [List.mem_append, List.mem_singleton] at hi
    rcases hi with ((hi | hi) | hi) | rfl
    · rcases ih i hi with h | h | h | h | ⟨t, w, q, s, n, h1, h2, h3⟩
      · exact .inl h
      · exact .inr (.inl h)
      · exact .inr (.inr (.inl h))
      · exact .inr (.inr (.inr (.inl h)))
      · exact .inr (.inr (.inr (.inr ⟨t, w, q, s, n, h1, List.mem_append_left _ (List.mem_append_left _ h2), h3⟩)))
    · rcases ih' i hi with h | h | h | h | ⟨t, w, q, s, n, h1, h2, h3⟩
      · exact .inl h
      · exact .inr (.inl h)
      · exact .inr (.inr (.inl h))
      · exact .inr (.inr (.inr (.inl h)))
      · exact .inr (.inr (.inr (.inr ⟨t, w, q, s, n, h1, List.mem_append_left _ (List.mem_append_right _ h2), h3⟩)))
    · rcases ih'' i hi with h | h | h | h | ⟨t, w, q, s, n, h1, h2, h3⟩
      · exact .inl h
      · exact .inr (.inl h)
      · exact .inr (.inr (.inl h))
      · exact .inr (.inr (.inr (.inl h)))
      · exact .inr (.inr (.inr (.inr ⟨t, w, q, s, n, h1, List.mem_append_right _ h2, h3⟩)))
    · exact .inl rfl
  | @elem t w _ _ q s _ hs hn _ _ _ ih =>
    intro i hi
    simp only [List.mem_append, List.mem_singleton] at hi
    rcases hi with hi | rfl
    · rcases ih i hi with h | h | h | h | ⟨t, w, q, s, n, h1, h2, h3⟩
      · exact .inl h
      · exact .inr (.inl h)
      · exact .inr (.inr (.inl h))
      · exact .inr (.inr (.inr (.inl h)))
      · exact .inr (.inr (.inr (.inr ⟨t, w, q, s, n, h1, List.mem_cons_of_mem _ h2, h3⟩)))
    · exact .inr (.inr (.inr (.inr ⟨t, w, q, s, 1, rfl, List.mem_cons_self .., hs, hn⟩)))
  | @elem2 t w _ _ _ _ q s _ _ hs hn _ _ _ ih ih' =>
    intro i hi
    simp only [List.mem_append, List.mem_singleton] at hi
    rcases hi with (hi | hi) | rfl
    · rcases ih i hi with h | h | h | h | ⟨t, w, q, s, n, h1, h2, h3⟩
      · exact .inl h
      · exact .inr (.inl h)
      · exact .inr (.inr (.inl h))
      · exact .inr (.inr (.inr (.inl h)))
      · exact .inr (.inr (.inr (.inr ⟨t, w, q, s, n, h1, List.mem_cons_of_mem _ (List.mem_append_left _ h2), h3⟩)))
    · rcases ih' i hi with h | h | h | h | ⟨t, w, q, s, n, h1, h2, h3⟩
      · exact .inl h
      · exact .inr (.inl h)
      · exact .inr (.inr (.inl h))
      · exact .inr (.inr (.inr (.inl h)))
      · exact .inr (.inr (.inr (.inr ⟨t, w, q, s, n, h1, List.mem_cons_of_mem _ (List.mem_append_right _ h2), h3⟩)))
    · exact .inr (.inr (.inr (.inr ⟨t, w, q, s, 2, rfl, List.mem_cons_self .., hs, hn⟩)))
  | @rndOf t _ _ _ _ ih =>
    intro i hi
    simp only [List.mem_append, List.mem_cons, List.not_mem_nil, or_false] at hi
    rcases hi with hi | rfl | rfl
    · exact ih i hi
    · exact .inr (.inr (.inr (.inl ⟨t, rfl⟩)))
    · exact .inr (.inl rfl)
  | @timeOf t _ _ _ _ ih =>
    intro i hi
    simp only [List.mem_append, List.mem_cons, List.not_mem_nil, or_false] at hi
    rcases hi with hi | rfl | rfl
    · exact ih i hi
    · exact .inr (.inr (.inr (.inl ⟨t, rfl⟩)))
    · exact .inr (.inr (.inl rfl))

theorem postfix_computing {st : SymTab} {t : Ty} {e : Expr t} {c : List Inst} (h : Postfix st e c) : ∀ i ∈ c, computing i = true := by
  intro i hi
  rcases postfix_inst h i hi with h | rfl | rfl | ⟨t, rfl⟩ | ⟨t, _, _, s, n, rfl, _⟩
  · exact plainOp_computing h
  · rfl
  · rfl
  · cases t <;> rfl
  · cases t <;> rfl

theorem postfix_noCall {st : SymTab} (hw : WellNamed st) (hl : st.psym.length ≤ 65536) {t : Ty} {e : Expr t} {c : List Inst} (h : Postfix st e c) (hf : NoFunctions e st) :
    ∀ i ∈ c, ∀ n s, ¬ CallOf st i n s := by
  intro i hi
  rcases postfix_inst h i hi with h | rfl | rfl | ⟨t, rfl⟩ | ⟨t, w, q, s, n, rfl, h1, h2, h3⟩
  · exact plainOp_call h
  · exact noCall_bi
  · exact noCall_bi
  · exact noCall_pop
  · intro m s' hc
    rw [symbol_id hw hl h2] at hc
    have : s'.kind = .def_ ∧ st.psym[q]? = some s' := by
      cases t with
      | str => cases hc with | str k1 k2 => exact ⟨k2, k1⟩
      | num => cases hc with | num k1 k2 => exact ⟨k2, k1⟩
      | err => cases hc with | num k1 k2 => exact ⟨k2, k1⟩
    rw [h2] at this
    cases this.2
    exact hf w h1 s (List.mem_of_getElem? h2) h3 this.1

/-- The loop of the machine while nothing interrupts it. -/
theorem vmLoop_after {env : Env} {brk : Nat → Bool} (hb : ∀ k, brk k = false) {n : Nat} : ∀ {vm m : VM} {j k : Nat}, after env n vm = some m →
    (∀ i m', i < n → after env i vm = some m' → m'.stopped = false) → vmLoop env brk (n + j) k vm = vmLoop env brk j (k + n) m := by
  induction n with
  | zero => intro vm m j k h _; cases h; simp
  | succ n ih =>
    intro vm m j k h hs
    simp only [after] at h
    cases hx : V.execute env vm with
    | ok a vm' =>
      simp only [hx] at h
      have h1 := hs 0 vm (by omega) rfl
      obtain ⟨b, hc, hpc⟩ : ∃ b, V.curBcode vm = .ok b vm ∧ vm.cs.pc < b.used := by
        simp only [V.execute, V.bind_apply] at hx
        cases hc : V.curBcode vm with
        | ok b vm1 =>
          have he : vm1 = vm := by
            have := V.Keeps.curBcode (I := fun u => u = vm) vm rfl
            rw [hc] at this
            exact this
          rw [he] at hc
          refine ⟨b, congrArg (Res.ok b) he, ?_⟩
          simp only [hc, V.get_apply] at hx
          cases hi : b.inst[vm.cs.pc]? with
          | none => simp [hi, V.halt] at hx
          | some i => exact (List.getElem?_eq_some_iff.1 hi).1
        | err => simp [hc] at hx
        | halt => simp [hc] at hx
      have hu : curUsed vm = .ok b.used := by simp only [curUsed, hc]
      have e1 : n + 1 + j = (n + j) + 1 := by omega
      rw [e1]
      conv => lhs; unfold vmLoop
      simp only [hu, hpc, h1, hb, hx]
      simp only [Bool.not_false, and_self, if_true]
      rw [ih h (fun i m' hi hm => hs (i + 1) m' (by omega) (by simp only [after, hx]; exact hm))]
      rw [show k + 1 + n = k + (n + 1) by omega]
    | err => simp [hx] at h
    | halt => simp [hx] at h

end LB
