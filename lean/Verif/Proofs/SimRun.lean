import Verif.Proofs.SimExec
import Verif.Proofs.Crash
import Verif.Proofs.RunEnds
/- Machines that agree run alike. -/
namespace LB
open LB.Spec Code
namespace V

/-- A function is only being called while its code is executed. -/
def Calm (vm : VM) : Prop := vm.fn.codeState.code.isSome = true → vm.cs.code = some .def_

/-- What holds whenever a function is left normally. -/
def Post {α : Type} (I : VM → Prop) (x : VmM α) : Prop := ∀ vm u vm', x vm = .ok u vm' → I vm'

theorem Post.bind {α β : Type} {I : VM → Prop} {x : VmM α} {f : α → VmM β} (h : ∀ u, Post I (f u)) : Post I (x >>= f) := by
  intro vm u vm' hx
  simp only [bind_apply] at hx
  cases h1 : x vm with
  | ok v w => rw [h1] at hx; exact h v w u vm' hx
  | err e w => rw [h1] at hx; cases hx
  | halt y => rw [h1] at hx; cases hx

theorem Post.set {α : Type} {I : VM → Prop} {g : VM → VM} {f : Unit → VmM α} (h1 : ∀ vm, I (g vm)) (h2 : Keeps I (f ())) :
    Post I (V.modify g >>= f) := by
  intro vm u vm' hx
  have h : f () (g vm) = .ok u vm' := hx
  have := h2 (g vm) (h1 vm)
  rw [h] at this
  exact this

theorem Post.halt {α : Type} {I : VM → Prop} (h : Halt) : Post I (V.halt h : VmM α) := by
  intro vm u vm' hx; cases hx

/-- Only some instructions change the caller or the code that is executed. -/
theorem closed_calls (c : CodeState × Option CodeRef) :
    Closed (fun a => a ≠ .fn ∧ a ≠ .jump ∧ a ≠ .ret) (fun vm => (vm.fn.codeState, vm.cs.code) = c) := by
  refine closed_of_field _ (fun vm => (vm.fn.codeState, vm.cs.code)) _ ?_ ?_ (fun h => absurd rfl h.2.2) ?_ ?_ ?_ ?_ ?_ (.inl (by decide)) ?_
    (fun h => absurd rfl h.1) ?_ <;> intros <;> first | rfl | simp_all

theorem post_callDef (id n : Nat) : Post (fun vm => vm.cs.code = some .def_) (callDef id n) := by
  unfold callDef
  refine Post.bind (fun s => Post.bind (fun _ => Post.bind (fun _ => ?_)))
  split
  · exact Post.halt _
  · refine Post.bind (fun vm => Post.bind (fun _ => Post.bind (fun _ => Post.bind (fun bc => Post.bind (fun _ => Post.bind (fun _ => Post.bind (fun _ =>
      Post.set (fun _ => rfl) ?_)))))))
    split
    · exact Keeps.halt _
    · keeps
      · exact Keeps.modify (fun _ h => h)
      · intro vm h
        unfold pop
        split <;> exact h
      · exact Keeps.modify (fun _ h => h)
      · exact Keeps.modify (fun _ h => h)
    · exact Keeps.fail _

theorem post_endDef : Post (fun vm => vm.fn.codeState.code = none) endDef := by
  unfold endDef
  refine Post.bind (fun vm => Post.bind (fun _ => Post.bind (fun _ => Post.set (fun _ => rfl) ?_)))
  keeps
  exact Keeps.modify (fun _ h => h)

/-- A function that keeps `J` up to a point where `I` is reached. -/
theorem Post.after {α β : Type} {I J : VM → Prop} {x : VmM α} {f : α → VmM β} (hx : Keeps J x)
    (hf : ∀ u vm w vm', J vm → f u vm = .ok w vm' → I vm') : ∀ vm w vm', J vm → (x >>= f) vm = .ok w vm' → I vm' := by
  intro vm w vm' hj h
  simp only [bind_apply] at h
  have := hx vm hj
  cases h1 : x vm with
  | ok v w1 => rw [h1] at h this; exact hf v w1 w vm' this h
  | err e w => rw [h1] at h; cases h
  | halt y => rw [h1] at h; cases h

theorem calm_of_same {vm vm' : VM} (hv : Calm vm) (h : (vm'.fn.codeState, vm'.cs.code) = (vm.fn.codeState, vm.cs.code)) : Calm vm' := by
  simp only [Prod.mk.injEq] at h
  unfold Calm
  rw [h.1, h.2]
  exact hv

theorem calm_getParenNum {id n : Nat} {vm vm' : VM} (hv : Calm vm) (h : getParenNum id n vm = .ok () vm') : Calm vm' := by
  have hc := closed_calls (vm.fn.codeState, vm.cs.code)
  unfold getParenNum at h
  refine Post.after (J := fun w => (w.fn.codeState, w.cs.code) = (vm.fn.codeState, vm.cs.code)) (Keeps.sym _) (fun s => ?_) vm () vm' rfl h
  refine Post.after (Keeps.assert _ _) (fun _ w1 u w2 hj hx => ?_)
  split at hx
  · have hk := Keeps.bind (keeps_getElement hc (by decide) (numField_ok (by decide)) id n) (fun x => hc.push (by decide) x) w1 hj
    rw [hx] at hk
    exact calm_of_same hv hk
  · exact fun _ => (Post.bind (fun _ => post_callDef id n)) w1 u w2 hx

theorem calm_getParenStr {id n : Nat} {vm vm' : VM} (hv : Calm vm) (h : getParenStr id n vm = .ok () vm') : Calm vm' := by
  have hc := closed_calls (vm.fn.codeState, vm.cs.code)
  unfold getParenStr at h
  refine Post.after (J := fun w => (w.fn.codeState, w.cs.code) = (vm.fn.codeState, vm.cs.code)) (Keeps.sym _) (fun s => ?_) vm () vm' rfl h
  refine Post.after (Keeps.assert _ _) (fun _ w1 u w2 hj hx => ?_)
  split at hx
  · have hk := Keeps.bind (keeps_getElement hc (by decide) (strField_ok (by decide)) id n) (fun x => hc.pushStr (by decide) (x.getD [])) w1 hj
    rw [hx] at hk
    exact calm_of_same hv hk
  · exact fun _ => (Post.bind (fun _ => post_callDef id n)) w1 u w2 hx

/-- One instruction keeps a machine calm. -/
theorem calm_execute {env : Env} {ph : Phase} {vm vm' : VM} (hr : Running ph vm) (hv : Calm vm) {i : Inst} (hat : At vm i)
    (h : execute env vm = .ok () vm') : Calm vm' := by
  have key : ∀ f w, exec env i vm = .ok f w → Calm w := by
    intro f w hx
    by_cases h1 : i = .endDef
    · subst h1
      simp only [exec, brk_apply] at hx
      cases he : endDef vm with
      | ok u w' =>
        rw [he] at hx
        cases hx
        intro hs
        rw [post_endDef vm u w he] at hs
        cases hs
      | err e w' => rw [he] at hx; cases hx
      | halt y => rw [he] at hx; cases hx
    · by_cases h2 : isExpr i = true
      · by_cases h3 : touches i .fn = true
        · have hc : (∃ id n, i = .getParenNum id n) ∨ ∃ id n, i = .getParenStr id n := by
            cases i with
            | bi b => cases b <;> cases h3
            | getParenNum id n => exact .inl ⟨id, n, rfl⟩
            | getParenStr id n => exact .inr ⟨id, n, rfl⟩
            | endDef => cases h2
            | _ => cases h3
          rcases hc with ⟨id, n, rfl⟩ | ⟨id, n, rfl⟩
          · simp only [exec, brk_apply] at hx
            cases he : getParenNum id n vm with
            | ok u w' => rw [he] at hx; cases hx; exact calm_getParenNum hv he
            | err e w' => rw [he] at hx; cases hx
            | halt y => rw [he] at hx; cases hx
          · simp only [exec, brk_apply] at hx
            cases he : getParenStr id n vm with
            | ok u w' => rw [he] at hx; cases hx; exact calm_getParenStr hv he
            | err e w' => rw [he] at hx; cases hx
            | halt y => rw [he] at hx; cases hx
        · have hk := keeps_exec (closed_calls (vm.fn.codeState, vm.cs.code)) env i (fun a ha => ?_) vm rfl
          · rw [hx] at hk
            simp only [Res.All, Prod.mk.injEq] at hk
            unfold Calm
            rw [hk.1, hk.2]
            exact hv
          · refine ⟨?_, ?_, ?_⟩ <;> rintro rfl
            · exact h3 ha
            all_goals (cases i with
              | bi b => cases b <;> cases ha
              | _ => first | exact (Bool.false_ne_true ha).elim | exact (Bool.false_ne_true h2).elim | exact h3 rfl)
      · obtain ⟨r, b, l, rest, ⟨hs, hh, hb⟩, -⟩ := standing hr hat (by simpa using h2) h1
        have hn : vm.fn.codeState.code = none := by
          cases hc : vm.fn.codeState.code with
          | none => rfl
          | some c =>
            have := hv (by rw [hc]; rfl)
            rw [hs] at this
            cases this
            rcases hh with hh | ⟨-, hh⟩ <;> cases hh
        have hk := keeps_exec (closed_fn vm.fn vm.defCode) env i (fun a ha => ?_) vm rfl
        · rw [hx] at hk
          simp only [Res.All, Prod.mk.injEq] at hk
          intro hc
          rw [hk.1, hn] at hc
          cases hc
        · rintro rfl
          cases i with
          | bi b => cases b <;> cases ha
          | endDef => exact h1 rfl
          | _ => first | exact (Bool.false_ne_true ha).elim | exact h2 rfl
  rw [execute_at env hat] at h
  cases hx : exec env i vm with
  | ok f w =>
    rw [hx] at h
    have := key f w hx
    cases f <;> cases h
    · exact this
    · exact this
  | err e w => rw [hx] at h; cases h
  | halt y => rw [hx] at h; cases h

variable {p : Scope}

/-- The machine is in order and can go on. -/
structure Fine (lines : List SrcLine) (vm : VM) : Prop where
  ordered : Ordered .program vm
  running : Running .program vm
  tab : Tab vm.st
  names : vm.st.psym.length ≤ 65536
  calm : Calm vm
  line : LineIn False vm
  source : ∃ src, vm.stored.source = some src ∧ src.lines = lines

theorem Fine.stored {lines : List SrcLine} {vm : VM} (h : Fine lines vm) {i : Inst} (hat : At vm i) (h1 : isExpr i = false) (h2 : i ≠ .endDef) :
    ∃ b, vm.cs.code = some .stored ∧ vm.stored.bcode = some b ∧ i ∈ b.inst := by
  obtain ⟨r, b, l, rest, ⟨⟨h3, h4, h5⟩, h6, -⟩⟩ := standing h.running hat h1 h2
  rcases h4 with rfl | ⟨h4, -⟩
  · exact ⟨b, h3, h5, List.mem_of_getElem? h6⟩
  · cases h4

/-- The line that is executed can be shown. -/
theorem Fine.on {lines : List SrcLine} {vm : VM} (h : Fine lines vm) {i : Inst} (hat : At vm i) (h1 : isExpr i = false) (h2 : i ≠ .endDef) :
    Shown lines vm vm.cs.sourceLine := by
  obtain ⟨b, h3, h4, h5⟩ := h.stored hat h1 h2
  obtain ⟨src, k1, rfl⟩ := h.source
  obtain ⟨src', k2, k3⟩ := h.line.stored b h4
  rw [k1] at k2; cases k2
  refine ⟨.stored, src, h3, k1, rfl, ?_⟩
  rcases h.line.lines.cs.2 h3 h.names b src h4 k1 with k | k
  · rw [k]; exact (k3 i h5).1
  · exact k

/-- The line that is reached can be shown. -/
theorem Fine.reached {lines : List SrcLine} {vm : VM} (h : Fine lines vm) {l : Nat} (hat : At vm (.sourceLine l)) : Shown lines vm l := by
  obtain ⟨b, h3, h4, h5⟩ := h.stored hat rfl (by simp)
  obtain ⟨src, k1, rfl⟩ := h.source
  obtain ⟨src', k2, k3⟩ := h.line.stored b h4
  rw [k1] at k2; cases k2
  exact ⟨.stored, src, h3, k1, rfl, (k3 _ h5).2 l rfl⟩

theorem Fine.step {env : Env} {lines : List SrcLine} {vm vm' : VM} (h : Fine lines vm) {i : Inst} (hat : At vm i) (hx : execute env vm = .ok () vm') : Fine lines vm' := by
  obtain ⟨h1, h2⟩ := execute_flow env h.ordered h.running h.tab h.names
  have hm := execute_moved hat (.inl hx)
  rw [hx] at h1 h2
  refine ⟨h1.1, h2, hm.tab h.tab, by rw [hm.length]; exact h.names, calm_execute h.running h.calm hat hx,
    h.line.exec (fun _ => h.running) hat (fun l k1 k2 => ?_) (.inl hx), by rw [hm.stored]; exact h.source⟩
  subst k1
  obtain ⟨b, h3, -⟩ := h.stored hat rfl (by simp)
  rw [k2] at h3; cases h3

/-- An instruction is executed alike. -/
theorem sim_execute (hc : p.code = true) (env : Env) {a b : VM} (h : Rel p a b) (hf : Fine p.lines a) :
    SimRes p (Rel p) Eq (execute env a) (execute env b) := by
  have c := h.ctl hc
  have hcur := sim_curBcode hc a b h
  simp only [execute, bind_apply, get_apply]
  cases hr : curBcode a with
  | halt y =>
    rw [hr] at hcur
    generalize curBcode b = rb at hcur
    cases hcur <;> first | exact .halt | (rename_i k; exact .fullNum k) | (rename_i k; exact .fullStr k)
  | err e y =>
    exfalso
    unfold curBcode at hr
    split at hr
    · cases hr
    · split at hr <;> cases hr
  | ok bc a' =>
    have hat : a' = a ∧ ∃ r, a.cs.code = some r ∧ (codeOf a r).bcode = some bc := by
      unfold curBcode at hr
      split at hr
      · cases hr
      · rename_i r hcr
        split at hr
        · cases hr
        · rename_i hb; cases hr; exact ⟨rfl, r, hcr, hb⟩
    obtain ⟨rfl, r, hcr, hb⟩ := hat
    have hb' : curBcode b = .ok bc b := by
      unfold curBcode
      rw [← c.cs, hcr]
      simp only [← (c.codes r (.inl hcr)).1, hb]
    rw [hb']
    simp only
    rw [← c.cs]
    cases hi : bc.inst[a'.cs.pc]? with
    | none => exact .halt
    | some i =>
      simp only
      have hat : At a' i := ⟨r, bc, hcr, hb, hi⟩
      have hw : ∀ id ∈ idsOf i, p.dom id := (c.codes r (.inl hcr)).2 bc hb i (List.mem_of_getElem? hi)
      refine SimG.bind (R := fun x y => x = a' ∧ y = b) (R' := Rel p) (Q := Eq) ?_ ?_ a' b ⟨rfl, rfl⟩
      · rintro x y ⟨hx, hy⟩
        subst hx hy
        refine sim_exec hc env i hw h (fun id hid => ?_) (fun hk _ => hf.on hat ?_ ?_) (fun l hl _ => hf.reached (hl ▸ hat))
        rotate_left
        · rcases hk with ⟨id, rfl | rfl⟩ | rfl <;> rfl
        · rintro rfl
          rcases hk with ⟨id, hk | hk⟩ | hk <;> cases hk
        subst hid
        obtain ⟨r', b', l, rest, ⟨hs, hh, -⟩, -⟩ := standing hf.running hat rfl (fun h => by cases h)
        cases hfc : x.fn.codeState.code with
        | none => rfl
        | some q =>
          have := hf.calm (by rw [hfc]; rfl)
          rw [hs] at this
          cases this
          rcases hh with hh | ⟨-, hh⟩ <;> cases hh
      · rintro u v rfl
        cases u
        · exact SimG.modify (fun x y hxy => hxy.setCs (by rw [(hxy.ctl hc).cs]) (fun k r hr => (hxy.ctl k).codes r (.inl hr)))
        · exact SimG.pure rfl

/-- Ends of runs that agree. -/
inductive SimEnd (p : Scope) : Outcome (RunEnd × VM) → Outcome (RunEnd × VM) → Prop
  | ok {e a b} (h : Rel p a b) : SimEnd p (.ok (e, a)) (.ok (e, b))
  | halt {h} : SimEnd p (.halt h) (.halt h)
  | fullNum {r i b} (h : p.nums ≠ []) : SimEnd p r (.ok (⟨some .numOverflow, i⟩, b))
  | fullStr {r i b} (h : p.strs ≠ []) : SimEnd p r (.ok (⟨some .strOverflow, i⟩, b))

/-- Machines that agree run alike. -/
theorem sim_loop (hc : p.code = true) (env : Env) (brk : Nat → Bool) (n k : Nat) {a b : VM} (h : Rel p a b) (hf : Fine p.lines a) :
    SimEnd p (vmLoop env brk n k a) (vmLoop env brk n k b) := by
  induction n generalizing k a b with
  | zero => exact .halt
  | succ n ih =>
    have c := h.ctl hc
    have hu : curUsed b = curUsed a := by
      unfold curUsed curBcode
      rw [← c.cs]
      cases hr : a.cs.code with
      | none => rfl
      | some r => simp only [← (c.codes r (.inl hr)).1]; cases (codeOf a r).bcode <;> rfl
    unfold vmLoop
    rw [hu, ← c.cs, ← c.stopped]
    cases hu' : curUsed a with
    | halt y => exact .halt
    | ok used =>
      simp only
      by_cases hg : a.cs.pc < used ∧ (!a.stopped) = true ∧ (!brk k) = true
      · rw [if_pos hg, if_pos hg]
        have hat : ∃ i, At a i := by
          unfold curUsed curBcode at hu'
          cases hr : a.cs.code with
          | none => rw [hr] at hu'; cases hu'
          | some r =>
            rw [hr] at hu'
            cases hb : (codeOf a r).bcode with
            | none => simp only [hb] at hu'; cases hu'
            | some bc =>
              simp only [hb] at hu'
              cases hu'
              exact ⟨bc.inst[a.cs.pc]'hg.1, r, bc, hr, hb, List.getElem?_eq_getElem hg.1⟩
        obtain ⟨i, hat⟩ := hat
        have hs := sim_execute hc env h hf
        have hmal := (execute_flow env hf.ordered hf.running hf.tab hf.names).2
        cases ha : execute env a with
        | ok u a' =>
          have hf' := hf.step hat ha
          rw [ha] at hs
          generalize execute env b = rb at hs
          cases hs with
          | ok hq h' => exact ih (k + 1) h' hf'
          | fullNum h' => exact .fullNum h'
          | fullStr h' => exact .fullStr h'
        | err e a' =>
          rw [ha] at hs hmal
          have hmal : ¬ Malformed e := hmal
          generalize execute env b = rb at hs
          cases hs with
          | err h' => exact .ok h'
          | fullNum h' => exact .fullNum h'
          | fullStr h' => exact .fullStr h'
          | emptyNum => exact absurd (by decide) hmal
          | emptyStr => exact absurd (by decide) hmal
          | corrupt => exact absurd (by decide) hmal
        | halt y =>
          rw [ha] at hs
          generalize execute env b = rb at hs
          cases hs with
          | halt => exact .halt
          | fullNum h' => exact .fullNum h'
          | fullStr h' => exact .fullStr h'
      · rw [if_neg hg, if_neg hg]
        exact .ok h

end V
end LB
