import Verif.Proofs.FnCall
import Verif.Proofs.Crash
import Verif.Proofs.HeldState
/- The body of a function as an expression, and calls of functions in a session. -/
namespace LB
open LB.Spec _root_.Spec Code

theorem quiet_computes {env : Env} {e : List Inst} {u : VM} {r : Res Unit} (h : Computes env e u r) (hx : ∀ i ∈ e, computing i = true) :
    ∀ w, V.Leaves r w → OnlyReads u w := by
  induction h with
  | done => intro w hw; cases hw; exact OnlyReads.refl _
  | next hc hr _ ih =>
    intro w hw
    exact (V.exec_quiet env (hx _ List.mem_cons_self) hc (by rw [hr]; exact .ok)).trans (ih (fun j hj => hx j (List.mem_cons_of_mem _ hj)) w hw)
  | again hc hr _ ih =>
    intro w hw
    exact (V.exec_quiet env (hx _ List.mem_cons_self) hc (by rw [hr]; exact .ok)).trans (ih hx w hw)
  | err hc hr =>
    intro w hw
    cases hw
    exact V.exec_quiet env (hx _ List.mem_cons_self) hc (by rw [hr]; exact .err)
  | halt => intro w hw; cases hw
  | nested => intro w hw; cases hw; exact OnlyReads.refl _
  | undefined => intro w hw; cases hw; exact OnlyReads.refl _

namespace V

/-- What an instruction of an expression that calls no function does to the sizes of the stacks. -/
theorem wp_plain (env : Env) {i : Inst} {vm : VM} {k : Nat × Nat} (he : eff i (hgt vm) = some k) (hc : ∀ n s, ¬ CallOf vm.st i n s) :
    (exec env i vm).Wp (fun f vm' => f = .brk ∧ hgt vm' = k ∨ f = .ret ∧ hgt vm' = hgt vm) := by
  obtain ⟨hx, h1, h2, rfl⟩ := eff_some he
  rcases expr_cases hx with hd | rfl | ⟨id, n, rfl⟩ | ⟨id, n, rfl⟩
  · have hs := steps_direct (c := vm.cs) (n := (hgt vm).1 - (uses i).1) (s := (hgt vm).2 - (uses i).2) env i hd vm
      (by rw [Nat.sub_add_cancel h1, Nat.sub_add_cancel h2]) rfl
    refine hs.mono ?_
    rintro _ vm' ⟨rfl, h3, h4⟩
    exact .inl ⟨rfl, h3⟩
  · refine (wp_rnd env vm).mono ?_
    rintro _ vm' (⟨rfl, h3, h4⟩ | ⟨rfl, h3, h4⟩)
    · exact .inr ⟨rfl, h3⟩
    · exact .inl ⟨rfl, h3⟩
  · simp only [exec, brk_apply, getParenNum, bind_apply]
    cases hs : vm.st.psym[id]? with
    | none => simp only [sym, symbolAt, hs]; trivial
    | some q =>
      simp only [sym_ok hs, assert_apply]
      by_cases ht : q.type = .num
      case neg => simp [ht, Res.Wp]
      simp only [ht, beq_self_eq_true, if_true]
      by_cases hk : q.kind = .array
      · simp only [hk, if_true]
        have hz : Sz vm.cs (hgt vm) ((hgt vm).1 - n + 1, (hgt vm).2) (getElement numField id n >>= push) := by
          have h3 := (sz_getElement (c := vm.cs) (n := (hgt vm).1 - n) (s := (hgt vm).2) (F := numField) id n)
          rw [Nat.sub_add_cancel (show n ≤ (hgt vm).1 from h1)] at h3
          exact h3.bind (fun _ => sz_push _)
        have h4 : (V.brk (getElement numField id n >>= push) vm).Wp (fun f vm' => f = Flow.brk ∧ hgt vm' = ((hgt vm).1 - n + 1, (hgt vm).2) ∨ f = .ret ∧ hgt vm' = hgt vm) :=
          wp_bind (hz vm rfl rfl) (fun _ vm' h => .inl ⟨rfl, h.1⟩)
        rw [brk_apply] at h4
        exact h4
      · simp only [hk, if_false, bind_apply, assert_apply]
        by_cases hk2 : q.kind = .def_
        · exact absurd (.num hs hk2 ht) (hc n q)
        · simp [hk2, Res.Wp]
  · simp only [exec, brk_apply, getParenStr, bind_apply]
    cases hs : vm.st.psym[id]? with
    | none => simp only [sym, symbolAt, hs]; trivial
    | some q =>
      simp only [sym_ok hs, assert_apply]
      by_cases ht : q.type = .str
      case neg => simp [ht, Res.Wp]
      simp only [ht, beq_self_eq_true, if_true]
      by_cases hk : q.kind = .array
      · simp only [hk, if_true]
        have hz : Sz vm.cs (hgt vm) ((hgt vm).1 - n, (hgt vm).2 + 1) (getElement strField id n >>= fun x => pushStr (x.getD [])) := by
          have h3 := (sz_getElement (c := vm.cs) (n := (hgt vm).1 - n) (s := (hgt vm).2) (F := strField) id n)
          rw [Nat.sub_add_cancel (show n ≤ (hgt vm).1 from h1)] at h3
          exact h3.bind (fun _ => sz_pushStr _)
        have h4 : (V.brk (getElement strField id n >>= fun x => pushStr (x.getD [])) vm).Wp (fun f vm' => f = Flow.brk ∧ hgt vm' = ((hgt vm).1 - n, (hgt vm).2 + 1) ∨ f = .ret ∧ hgt vm' = hgt vm) :=
          wp_bind (hz vm rfl rfl) (fun _ vm' h => .inl ⟨rfl, h.1⟩)
        rw [brk_apply] at h4
        exact h4
      · simp only [hk, if_false, bind_apply, assert_apply]
        by_cases hk2 : q.kind = .def_
        · exact absurd (.str hs hk2 ht) (hc n q)
        · simp [hk2, Res.Wp]

/-- What lies below on the stacks stays there. -/
theorem computes_over {env : Env} {ns : List Dbl} {ss : List CStr} {e : List Inst} {u : VM} {r : Res Unit} (h : Computes env e u r) :
    ∀ a k w, u = over ⟨ns, ss, none⟩ a → sizes e (hgt a) = some k → r = .ok () w → ∃ b, w = over ⟨ns, ss, none⟩ b ∧ hgt b = k := by
  induction h with
  | done =>
    intro a k w h1 h2 h3
    cases h3
    exact ⟨a, h1, by simpa [sizes] using h2⟩
  | @next i l vm vm' r hc hr _ ih =>
    intro a k w h1 h2 h3
    subst h1
    simp only [sizes] at h2
    cases he : eff i (hgt a) with
    | none => rw [he] at h2; cases h2
    | some j =>
      rw [he] at h2
      have hw := wp_plain env he hc
      have ht := tops_exec ⟨ns, ss, none⟩ env (vm := a) (by rw [computing_isExpr]; exact (eff_some he).1) hc
      rw [hr] at ht
      cases hx : exec env i a with
      | ok f b =>
        rw [hx] at ht hw
        cases ht
        rcases hw with ⟨-, hw⟩ | ⟨hw, -⟩
        · exact ih b k w rfl (by rw [hw]; exact h2) h3
        · cases hw
      | err er b =>
        rw [hx] at ht hw
        have hmal : ¬ Malformed er := hw
        cases ht with
        | emptyNum => exact absurd (by decide) hmal
        | emptyStr => exact absurd (by decide) hmal
      | halt y => rw [hx] at ht; cases ht
  | @again i l vm vm' r hc hr _ ih =>
    intro a k w h1 h2 h3
    subst h1
    have h2' := h2
    simp only [sizes] at h2
    cases he : eff i (hgt a) with
    | none => rw [he] at h2; cases h2
    | some j =>
      have hw := wp_plain env he hc
      have ht := tops_exec ⟨ns, ss, none⟩ env (vm := a) (by rw [computing_isExpr]; exact (eff_some he).1) hc
      rw [hr] at ht
      cases hx : exec env i a with
      | ok f b =>
        rw [hx] at ht hw
        cases ht
        rcases hw with ⟨hw, -⟩ | ⟨-, hw⟩
        · cases hw
        · exact ih b k w rfl (by rw [hw]; exact h2') h3
      | err er b =>
        rw [hx] at ht hw
        have hmal : ¬ Malformed er := hw
        cases ht with
        | emptyNum => exact absurd (by decide) hmal
        | emptyStr => exact absurd (by decide) hmal
      | halt y => rw [hx] at ht; cases ht
  | err => intro a k w h1 h2 h3; cases h3
  | halt => intro a k w h1 h2 h3; cases h3
  | nested => intro a k w h1 h2 h3; cases h3
  | undefined => intro a k w h1 h2 h3; cases h3

end V

/-- A call of a function in a session. -/
theorem session_call {may : Cmd → VM → Prop} (hm : ∀ vm, may .cont vm → StoppedBetween vm) {ph : Phase} {vm : VM} (h : State may ph vm)
    (hp : ph ≠ .idle) (hn : vm.st.psym.length ≤ 65536) {i : Inst} {s : Symbol} (hat : At vm i) (hc : CallOf vm.st i 1 s)
    (hd : s.defined = true) (hf : vm.fn.codeState.code = none) :
    ∃ d p e x rest k, CallsFn vm d p e x rest ∧ s.def_ = some d ∧ sizes e (0, 0) = some k ∧ (unit s.type).1 ≤ k.1 ∧ (unit s.type).2 ≤ k.2 := by
  obtain ⟨o, hr⟩ := state_running hm h hp hn
  obtain ⟨id, hs, hk, hi⟩ : ∃ id, vm.st.psym[id]? = some s ∧ s.kind = .def_ ∧ (i = .getParenNum id 1 ∨ i = .getParenStr id 1) := by
    cases hc with
    | num h1 h2 h3 => exact ⟨_, h1, h2, .inl rfl⟩
    | str h1 h2 h3 => exact ⟨_, h1, h2, .inr rfl⟩
  have hheld := (state_held h).syms
  obtain ⟨d, hd'⟩ := Option.isSome_iff_exists.1 ((hheld id s hs).defs hk hd)
  obtain ⟨hshape, hfits⟩ := o.defs id s d hs hd'
  obtain ⟨fid, p, e, hcode, a, b, hsz, ha, hb⟩ := hshape
  have hparam : NumVar vm.st p := by
    obtain ⟨q, h1, h2⟩ := ident_at (state_base h).tab hn (hfits (.param p) (by rw [hcode]; simp))
    exact ⟨q, h1, h2⟩
  rcases hr with ⟨r, bc, k1, k2, k3, k4⟩ | ⟨-, _, _, _, r, _, -, -, -, -, k, -⟩
  · obtain ⟨r', bc', j1, j2, j3⟩ := hat
    rw [k1] at j1; cases j1
    rw [k3] at j2; cases j2
    obtain ⟨l, rest, m1, m2, m3, m4⟩ := k4.head j3
    have hexpr : ∃ k, eff i (hgt vm) = some k ∧ l ≠ [] := by
      rcases hi with rfl | rfl <;> cases m3 with
      | expr a b c => exact ⟨_, a, c⟩
      | plain a b c => cases a
      | on a b c => rcases a with a | a <;> cases a
      | item a b c d e => cases b
    obtain ⟨k, he, hl⟩ := hexpr
    have hst : 1 ≤ vm.stack.length := by
      have := (V.eff_some he).2.1
      rcases hi with rfl | rfl <;> exact this
    cases hstk : vm.stack with
    | nil => rw [hstk] at hst; simp at hst
    | cons x rest' =>
      refine ⟨d, p, e, x, rest', (a, b), ⟨⟨i, s, ⟨r, bc, k1, k3, j3⟩, hc, hd, hd'⟩, hf, ?_, ⟨fid, hcode⟩, ?_, hparam, hstk⟩, hd', hsz, ha, hb⟩
      · cases hb2 : bc.inst.drop (vm.cs.pc + 1) with
        | nil => rw [hb2] at m2; exact absurd (List.append_eq_nil_iff.1 m2.symm).1 hl
        | cons y ys =>
          refine ⟨y, r, bc, k1, by rw [← k3]; cases r <;> rfl, ?_⟩
          have : (bc.inst.drop (vm.cs.pc + 1))[0]? = some y := by rw [hb2]; rfl
          rwa [List.getElem?_drop] at this
      · intro j hj
        rw [V.computing_isExpr]
        exact sizes_isExpr hsz j hj
  · rw [hf] at k; cases k
end LB
