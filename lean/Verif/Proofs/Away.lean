import Verif.Proofs.Frame
/- Without a stored program, execution never refers to one. -/
namespace LB
namespace V

/-- No code that execution can go back to is the stored program, and no line of it can be found. -/
structure Away (vm : VM) : Prop where
  index : vm.stored.index = none
  cs : vm.cs.code ≠ some .stored
  fn : vm.fn.codeState.code ≠ some .stored
  rets : ∀ c ∈ vm.retstack, c.code ≠ some .stored
  fors : ∀ f ∈ vm.forStack, f.codeState.code ≠ some .stored

theorem Away.same {vm vm' : VM} (h : Away vm) (h1 : vm'.stored = vm.stored) (h2 : vm'.cs.code = vm.cs.code) (h3 : vm'.fn = vm.fn)
    (h4 : vm'.retstack = vm.retstack) (h5 : vm'.forStack = vm.forStack) : Away vm' :=
  ⟨by rw [h1]; exact h.index, by rw [h2]; exact h.cs, by rw [h3]; exact h.fn, by rw [h4]; exact h.rets, by rw [h5]; exact h.fors⟩

theorem keeps_forTop_away (id : Nat) (hd : Keeps Away (dumpForStack "overflow")) : Keeps Away (forTop id) := by
  unfold forTop
  refine Keeps.bind ?_ (fun _ => ?_)
  · intro vm h
    unfold forEntry
    simp only [bind_apply, get_apply]
    cases hff : findFor vm id with
    | some si =>
      simp only
      cases hf : vm.forStack[si]? with
      | none => exact trivial
      | some f =>
        refine ⟨h.index, h.cs, h.fn, h.rets, fun g hg => ?_⟩
        rcases List.mem_append.1 hg with hg | hg
        · exact h.fors g ((List.eraseIdx_sublist _ _).mem hg)
        · rw [List.mem_singleton] at hg
          subst hg
          exact h.fors _ (List.mem_of_getElem? hf)
    | none =>
      by_cases hm : vm.forStack.length ≥ maxFor
      · simp only [if_pos hm]; exact (hd.bind (fun _ => Keeps.fail _)) vm h
      · simp only [if_neg hm]
        refine ⟨h.index, h.cs, h.fn, h.rets, fun g hg => ?_⟩
        rcases List.mem_append.1 hg with hg | hg
        · exact h.fors g hg
        · rw [List.mem_singleton] at hg
          subst hg
          exact fun h => (by cases h)
  · intro vm h
    simp only [bind_apply, get_apply, setTopFor, modify_apply]
    refine ⟨h.index, h.cs, h.fn, h.rets, fun g hg => ?_⟩
    obtain ⟨k, hk⟩ := List.getElem?_of_mem hg
    simp only [List.getElem?_modify] at hk
    cases hx : vm.forStack[k]? with
    | none => rw [hx] at hk; cases hk
    | some x =>
      rw [hx] at hk
      simp only [Option.map_eq_map, Option.map_some, Option.some.injEq] at hk
      rw [← hk]
      split
      · exact h.cs
      · exact h.fors _ (List.mem_of_getElem? hx)

theorem closed_away : Closed (fun a => a ≠ .jump ∧ a ≠ .fn) Away where
  push _ x := by
    intro vm h; simp only [push]; split
    · exact h
    · exact h.same rfl rfl rfl rfl rfl
  pop := by
    intro vm h; simp only [pop]; split
    · exact h
    · exact h.same rfl rfl rfl rfl rfl
  pushStr _ x := by
    intro vm h; simp only [pushStr]; split
    · exact h
    · exact h.same rfl rfl rfl rfl rfl
  popStr := by
    intro vm h; simp only [popStr]; split
    · exact h
    · exact h.same rfl rfl rfl rfl rfl
  pushReturn _ pc := by
    intro vm h; simp only [pushReturn]; split
    · exact h
    · refine ⟨h.index, h.cs, h.fn, fun c hc => ?_, h.fors⟩
      rcases List.mem_cons.1 hc with rfl | hc
      · exact h.cs
      · exact h.rets c hc
  popReturn _ := by
    intro vm h; simp only [popReturn]; split
    · exact h
    · rename_i c r hr
      exact ⟨h.index, h.rets c (by rw [hr]; exact List.mem_cons_self), h.fn,
        fun x hx => h.rets x (by rw [hr]; exact List.mem_cons_of_mem _ hx), h.fors⟩
  updSym _ id f _ _ _ _ := Keeps.modify (fun vm h => h.same rfl rfl rfl rfl rfl)
  clear _ vm h := h.same rfl rfl rfl rfl rfl
  world _ vm w h := h.same rfl rfl rfl rfl rfl
  col _ vm c h := h.same rfl rfl rfl rfl rfl
  cs vm c hj _ h := h.same rfl (hj.resolve_left (fun h => h.1 rfl)) rfl rfl rfl
  stopped _ vm c h := h.same rfl rfl rfl rfl rfl
  fn hf := absurd rfl hf.2
  defCode hf := absurd rfl hf.2
  input _ vm c _ h := h.same rfl rfl rfl rfl rfl
  inp _ vm c h := h.same rfl rfl rfl rfl rfl
  inputPc _ vm c h := h.same rfl rfl rfl rfl rfl
  trace := .inl (by decide)
  programData _ vm n h := h.same rfl rfl rfl rfl rfl
  immediateData _ vm n h := h.same rfl rfl rfl rfl rfl
  forTop _ id hd := keeps_forTop_away id hd
  setTopFor _ f hf := by
    refine Keeps.modify (fun vm h => ⟨h.index, h.cs, h.fn, h.rets, fun g hg => ?_⟩)
    obtain ⟨k, hk⟩ := List.getElem?_of_mem hg
    simp only [List.getElem?_modify] at hk
    cases hx : vm.forStack[k]? with
    | none => rw [hx] at hk; cases hk
    | some x =>
      rw [hx] at hk
      simp only [Option.map_eq_map, Option.map_some, Option.some.injEq] at hk
      rw [← hk]
      split
      · rw [(hf x).2]; exact h.fors _ (List.mem_of_getElem? hx)
      · exact h.fors _ (List.mem_of_getElem? hx)
  erase _ vm si h := ⟨h.index, h.cs, h.fn, h.rets, fun g hg => h.fors g ((List.eraseIdx_sublist _ _).mem hg)⟩

theorem away_goTo (n : Nat) : Keeps Away (goToBasicLine n) := by
  intro vm h
  simp only [goToBasicLine, findBasicLine, bind_apply, h.index, Option.bind_none]
  exact h

theorem away_next (si : Nat) : Keeps Away (next si) := by
  intro vm h
  unfold next
  simp only [bind_apply, get_apply]
  cases hf : vm.forStack[si]? with
  | none => trivial
  | some f =>
    simp only [bind_apply]
    have ht : Keeps Away (traced (dumpForStack "final stack")) :=
      keeps_traced closed_away (fun hi => keeps_dumpForStack closed_away hi _)
    have hs := Keeps.sym (I := Away) f.symbolId vm h
    have hfix := Keeps.sym (I := fun w => w.forStack = vm.forStack) f.symbolId vm rfl
    generalize V.sym f.symbolId vm = r at hs hfix ⊢
    cases r with
    | halt _ => trivial
    | err _ _ => exact hs
    | ok s w =>
      have hs : Away w := hs
      have hfix : w.forStack = vm.forStack := hfix
      by_cases hp : pastLimit f.step (s.num.add f.step) f.limit = true
      · simp only [if_pos hp, modify_apply]
        exact ht _ ⟨hs.index, hs.cs, hs.fn, hs.rets, fun g hg => hs.fors g ((List.eraseIdx_sublist _ _).mem hg)⟩
      · simp only [if_neg hp, modify_apply]
        exact ht _ ⟨hs.index, h.fors f (List.mem_of_getElem? hf), hs.fn, hs.rets, hs.fors⟩

theorem away_callDef (id n : Nat) : Keeps Away (callDef id n) := by
  have hc := closed_away
  unfold callDef
  keeps
  · exact Keeps.modify (fun vm h => ⟨h.index, h.cs, h.cs, h.rets, h.fors⟩)
  · exact Keeps.modify (fun vm h => h.same rfl rfl rfl rfl rfl)
  · exact Keeps.modify (fun vm h => ⟨h.index, fun h => (by cases h), h.fn, h.rets, h.fors⟩)
  · exact Keeps.modify (fun vm h => ⟨h.index, h.cs, h.fn, h.rets, h.fors⟩)
  · exact hc.pop
  · exact Keeps.modify (fun vm h => h.same rfl rfl rfl rfl rfl)
  · exact Keeps.modify (fun vm h => h.same rfl rfl rfl rfl rfl)

theorem away_endDef : Keeps Away endDef := by
  unfold endDef
  keeps
  · exact Keeps.modify (fun w hw => ⟨hw.index, hw.fn, hw.fn, hw.rets, hw.fors⟩)
  · exact Keeps.modify (fun w hw => ⟨hw.index, hw.cs, fun h => (by cases h), hw.rets, hw.fors⟩)
  · exact Keeps.modify (fun vm h => h.same rfl rfl rfl rfl rfl)

theorem exec_away (env : Env) (i : Inst) : Keeps Away (exec env i) := by
  have hc := closed_away
  cases hj : touches i .jump with
  | false =>
    cases hf : touches i .fn with
    | false =>
      refine keeps_exec hc env i (fun a ha => ⟨?_, ?_⟩)
      · rintro rfl; rw [hj] at ha; cases ha
      · rintro rfl; rw [hf] at ha; cases ha
    | true =>
      cases i with
      | bi f => cases f <;> exact (Bool.false_ne_true hf).elim
      | _ => first | exact (Bool.false_ne_true hf).elim | exact (Bool.false_ne_true hj.symm).elim
  | true =>
    cases i with
    | goto_ l => exact Keeps.ret (away_goTo l)
    | gotrue l =>
      simp only [exec]
      keeps
      · exact hc.pop
      · exact away_goTo l
    | gosub l =>
      simp only [exec]
      keeps
      · exact hc.pushReturn (by decide) _
      · exact away_goTo l
    | return_ => exact Keeps.ret (hc.popReturn (by decide))
    | nextVar id =>
      refine Keeps.brk ?_
      unfold nextVariable
      keeps
      · exact keeps_traced hc (fun hi => keeps_dumpFor hc hi _)
      · exact away_next _
      · exact away_next _
    | nextImp =>
      refine Keeps.brk ?_
      unfold nextImplicit
      keeps
      · exact keeps_traced hc (fun hi => keeps_dumpFor hc hi _)
      · exact away_next _
    | onGoto n =>
      refine Keeps.ret ?_
      unfold onStatement
      keeps
      · exact hc.pop
      · exact keeps_setPc hc _
      · exact hc.pushReturn (by decide) _
      · exact away_goTo _
    | onGosub n =>
      refine Keeps.ret ?_
      unfold onStatement
      keeps
      · exact hc.pop
      · exact keeps_setPc hc _
      · exact hc.pushReturn (by decide) _
      · exact away_goTo _
    | getParenNum id n =>
      refine Keeps.brk ?_
      unfold getParenNum
      keeps
      · exact keeps_getElement hc (by decide) (numField_ok (by decide)) _ _
      · exact hc.push (by decide) _
      · exact away_callDef _ _
    | getParenStr id n =>
      refine Keeps.brk ?_
      unfold getParenStr
      keeps
      · exact keeps_getElement hc (by decide) (strField_ok (by decide)) _ _
      · exact hc.pushStr (by decide) _
      · exact away_callDef _ _
    | endDef => exact Keeps.brk away_endDef
    | bi f => cases f <;> exact (Bool.false_ne_true hj).elim
    | _ => exact (Bool.false_ne_true hj).elim

theorem execute_away (env : Env) : Keeps Away (execute env) := by
  unfold execute
  keeps
  · exact exec_away env _
  · exact Keeps.modify (fun vm h => h.same rfl rfl rfl rfl rfl)

end V
end LB
